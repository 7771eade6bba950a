import Verif.IndexExpr.Model
import Mathlib.Tactic.Linarith
import Mathlib.Tactic.FieldSimp
import Mathlib.Tactic.Positivity
import Mathlib.Data.Nat.Log

namespace Verif.IndexExpr

/-! ## Division through doubles -/

theorem IsDouble.int {fl : ℚ → ℚ} (h : IsDouble fl) (n : ℤ) (hn : |n| ≤ 2 ^ 53) : fl n = n := by
  have := h.exact n 0 hn (by omega)
  simpa using this

theorem exists_pow (b : Nat) (hb : 0 < b) : ∃ j, b ≤ 2 ^ j ∧ 2 ^ j < 2 * b := by
  rcases Nat.lt_or_ge 1 b with h | h
  · refine ⟨Nat.clog 2 b, Nat.le_pow_clog (by omega) b, ?_⟩
    have h1 := Nat.pow_pred_clog_lt_self (b := 2) (by omega) h
    have h2 : 0 < Nat.clog 2 b := Nat.clog_pos (by omega) h
    obtain ⟨m, hm⟩ : ∃ m, Nat.clog 2 b = m + 1 := ⟨_, (Nat.succ_pred_eq_of_pos h2).symm⟩
    rw [hm] at h1 ⊢
    simp only [Nat.pred_succ] at h1
    rw [pow_succ]; omega
  · exact ⟨0, by omega, by simp; omega⟩

theorem floor_double_small {fl : ℚ → ℚ} (h : IsDouble fl) (a b : ℤ) (hb : b ≠ 0)
    (hs : |a| + |b| ≤ 2 ^ 52) : ⌊fl (fl a / fl b)⌋ = floorQ a b := by
  have ha0 := abs_nonneg a
  have hb0 := abs_pos.2 hb
  rw [h.int a (by linarith), h.int b (by linarith)]
  unfold floorQ
  set x : ℚ := (a : ℚ) / b with hx
  set n := ⌊x⌋ with hn
  have hn1 : (n : ℚ) ≤ x := Int.floor_le x
  have hn2 : x < n + 1 := Int.lt_floor_add_one x
  -- integer facts, with positive divisor `B = |b|` and `A = ± a`
  obtain ⟨A, B, hB, hxAB, hAa, hBb⟩ : ∃ A B : ℤ, 0 < B ∧ x = (A : ℚ) / B ∧ |A| = |a| ∧ B = |b| := by
    rcases lt_or_gt_of_ne hb with hb' | hb'
    · refine ⟨-a, -b, by omega, ?_, abs_neg a, (abs_of_neg hb').symm⟩
      rw [hx]; push_cast; rw [neg_div_neg_eq]
    · exact ⟨a, b, hb', hx, rfl, (abs_of_pos hb').symm⟩
  have hBq : (0 : ℚ) < B := by exact_mod_cast hB
  have hnB : n * B ≤ A := by
    have : (n : ℚ) * B ≤ A := by rw [hxAB, le_div_iff₀ hBq] at hn1; exact hn1
    exact_mod_cast this
  have hnB2 : A < (n + 1) * B := by
    have : (A : ℚ) < (n + 1) * B := by rw [hxAB, div_lt_iff₀ hBq] at hn2; exact hn2
    exact_mod_cast this
  have hA1 := le_abs_self A
  have hA2 := neg_abs_le A
  rw [hAa] at hA1 hA2
  -- `|n| ≤ 2^53`
  have hn53 : |n| ≤ 2 ^ 53 := by
    rw [abs_le]
    constructor
    · nlinarith
    · nlinarith
  obtain ⟨j, hj1, hj2⟩ := exists_pow B.toNat (by omega)
  have hBn : (B.toNat : ℤ) = B := by omega
  have hj1' : B ≤ 2 ^ j := by rw [← hBn]; exact_mod_cast hj1
  have hj2' : (2 : ℤ) ^ j < 2 * B := by rw [← hBn]; exact_mod_cast hj2
  have hjle : j ≤ 64 := by
    by_contra hc
    have : (2 : ℤ) ^ 65 ≤ 2 ^ j := by
      exact_mod_cast Nat.pow_le_pow_right (by omega : 0 < 2) (by omega : 65 ≤ j)
    have : B ≤ 2 ^ 52 := by rw [hBb]; linarith
    norm_num at *
    omega
  have hP : (0 : ℤ) < 2 ^ j := by positivity
  generalize hPdef : (2 : ℤ) ^ j = P at hj1' hj2' hP
  have hm : |(n + 1) * P - 1| ≤ 2 ^ 53 := by
    have hBb' : B ≤ 2 ^ 52 - |a| := by linarith
    rw [abs_le]
    constructor
    · rcases lt_or_ge n 0 with hneg | hpos
      · have h1 : (n + 1) * B ≥ -|a| := by linarith
        rcases lt_or_eq_of_le (show n + 1 ≤ 0 by omega) with h2 | h2
        · have h3 : (n + 1) * P ≥ (n + 1) * (2 * B) := by nlinarith
          nlinarith
        · rw [h2]; norm_num
      · nlinarith
    · rcases lt_or_ge n 0 with hneg | hpos
      · nlinarith
      · have h3 : (n + 1) * P ≤ (n + 1) * (2 * B) := by nlinarith
        nlinarith
  have hex := h.exact ((n + 1) * P - 1) j hm hjle
  have hPq : ((2 : ℚ) ^ j) = (P : ℚ) := by rw [← hPdef]; push_cast; rfl
  rw [hPq] at hex
  have hPq0 : (0 : ℚ) < P := by exact_mod_cast hP
  have hxle : x ≤ (((n + 1) * P - 1 : ℤ) : ℚ) / P := by
    rw [hxAB, div_le_div_iff₀ hBq hPq0]
    have h1 : A ≤ (n + 1) * B - 1 := by omega
    have : A * P ≤ ((n + 1) * P - 1) * B := by nlinarith
    exact_mod_cast this
  have hup := h.mono _ _ hxle
  rw [hex] at hup
  have hlo := h.mono _ _ hn1
  rw [h.int n hn53] at hlo
  rw [Int.floor_eq_iff]
  refine ⟨hlo, lt_of_le_of_lt hup ?_⟩
  rw [div_lt_iff₀ hPq0]
  push_cast
  linarith

theorem IsDouble.neg {fl : ℚ → ℚ} (h : IsDouble fl) : IsDouble (fun x => -fl (-x)) where
  mono := fun x y hxy => neg_le_neg (h.mono _ _ (neg_le_neg hxy))
  exact := fun m k hm hk => by
    have := h.exact (-m) k (by rwa [abs_neg]) hk
    push_cast at this
    rw [neg_div] at this
    rw [this, neg_neg]
  pow := fun m hm => by
    have := h.pow (-m) (by rwa [abs_neg])
    push_cast at this
    rw [this, neg_neg]

theorem ceil_double_small {fl : ℚ → ℚ} (h : IsDouble fl) (a b : ℤ) (hb : b ≠ 0)
    (hs : |a| + |b| ≤ 2 ^ 52) : ⌈fl (fl a / fl b)⌉ = ceilQ a b := by
  have ha0 := abs_nonneg a
  have hb0 := abs_pos.2 hb
  have h1 := floor_double_small h.neg (-a) b hb (by rwa [abs_neg])
  rw [h.neg.int (-a) (by rw [abs_neg]; linarith), h.neg.int b (by linarith)] at h1
  rw [h.int a (by linarith), h.int b (by linarith)]
  unfold floorQ at h1
  unfold ceilQ
  push_cast at h1
  rw [neg_div, neg_neg, Int.floor_neg, Int.floor_neg] at h1
  omega

theorem floor_unit {fl : ℚ → ℚ} (h : IsDouble fl) {t : ℚ} (h1 : 1 / 2 ^ 63 ≤ t)
    (h2 : t ≤ 9007199254740991 / 2 ^ 53) : ⌊fl t⌋ = 0 ∧ ⌊fl (-t)⌋ = -1 := by
  have e1 := h.exact 1 63 (by norm_num) (by norm_num)
  have e2 := h.exact (2 ^ 53 - 1) 53 (by norm_num) (by norm_num)
  have e3 := h.exact (-1) 63 (by norm_num) (by norm_num)
  have e4 := h.exact (-(2 ^ 53 - 1)) 53 (by norm_num) (by norm_num)
  push_cast at e1 e2 e3 e4
  have m1 := h.mono _ _ h1
  have m2 := h.mono _ _ h2
  have m3 := h.mono (-t) (-1 / 2 ^ 63) (by rw [neg_div]; linarith)
  have m4 := h.mono (-9007199254740991 / 2 ^ 53) (-t) (by rw [neg_div]; linarith)
  rw [e1] at m1; rw [e2] at m2; rw [e3] at m3; rw [e4] at m4
  norm_num at m1 m2 m3 m4
  constructor
  · rw [Int.floor_eq_iff]; push_cast
    exact ⟨by linarith, by linarith⟩
  · rw [Int.floor_eq_iff]; push_cast
    exact ⟨by linarith, by linarith⟩

theorem isDouble_id : IsDouble id := ⟨fun _ _ h => h, fun _ _ _ _ => rfl, fun _ _ => rfl⟩

theorem unit_bounds {a : ℤ} {β : ℚ} (ha : a ≠ 0) (ha2 : |a| ≤ 2 ^ 52) (h1 : (|a| : ℚ) + 1 ≤ β)
    (h2 : β ≤ 2 ^ 63) : (1 : ℚ) / 2 ^ 63 ≤ |(a : ℚ)| / β ∧ |(a : ℚ)| / β ≤ 9007199254740991 / 2 ^ 53 := by
  have ha1 : (1 : ℚ) ≤ |(a : ℚ)| := by
    have : (1 : ℤ) ≤ |a| := Int.one_le_abs ha
    exact_mod_cast this
  have ha2' : |(a : ℚ)| ≤ 2 ^ 52 := by exact_mod_cast ha2
  have hβ : 0 < β := by linarith
  constructor
  · rw [div_le_div_iff₀ (by norm_num) hβ]
    nlinarith
  · rw [div_le_div_iff₀ hβ (by norm_num)]
    norm_num at *
    nlinarith

theorem floor_double {fl : ℚ → ℚ} (h : IsDouble fl) (a b : ℤ) (hb : b ≠ 0)
    (hs : DivOk a b) : ⌊fl (fl a / fl b)⌋ = floorQ a b := by
  rcases hs with hs | ⟨h1, h2, h3⟩
  · exact floor_double_small h a b hb hs
  · rw [h.int a (by omega)]
    have hab : (|a| : ℚ) + 1 ≤ |(b : ℚ)| := by exact_mod_cast (show |a| + 1 ≤ |b| by omega)
    have hb63 : |(b : ℚ)| ≤ 2 ^ 63 := by exact_mod_cast h3
    have hz : fl 0 = 0 := by simpa using h.int 0 (by norm_num)
    -- the rounded divisor keeps sign and size
    have hβ : (|a| : ℚ) + 1 ≤ |fl b| ∧ |fl b| ≤ 2 ^ 63 ∧ (0 < b → 0 < fl b) ∧ (b < 0 → fl b < 0) := by
      have p1 := h.int (|a| + 1) (by rw [abs_of_nonneg (by positivity)]; omega)
      have p2 := h.int (-(|a| + 1)) (by rw [abs_neg, abs_of_nonneg (by positivity)]; omega)
      have p3 := h.pow (2 ^ 63) (by norm_num)
      have p4 := h.pow (-2 ^ 63) (by norm_num)
      push_cast at p1 p2 p3 p4
      have ha0 : (0 : ℚ) ≤ |(a : ℚ)| := abs_nonneg _
      rcases lt_or_gt_of_ne hb with hneg | hpos
      · have hbq : (b : ℚ) < 0 := by exact_mod_cast hneg
        rw [abs_of_neg hbq] at hab hb63
        have m1 := h.mono b (-(|(a : ℚ)| + 1)) (by linarith)
        have m2 := h.mono (-9223372036854775808) b (by linarith)
        rw [p2] at m1; rw [p4] at m2
        have hn : fl b < 0 := by linarith
        rw [abs_of_neg hn]
        exact ⟨by linarith, by linarith, fun hh => by omega, fun _ => hn⟩
      · have hbq : (0 : ℚ) < b := by exact_mod_cast hpos
        rw [abs_of_pos hbq] at hab hb63
        have m1 := h.mono (|(a : ℚ)| + 1) b (by linarith)
        have m2 := h.mono b 9223372036854775808 (by linarith)
        rw [p1] at m1; rw [p3] at m2
        have hn : 0 < fl b := by linarith
        rw [abs_of_pos hn]
        exact ⟨by linarith, by linarith, fun _ => hn, fun hh => by omega⟩
    obtain ⟨hβ1, hβ2, hpos, hneg⟩ := hβ
    unfold floorQ
    rcases eq_or_ne a 0 with rfl | ha
    · simp [hz]
    · obtain ⟨u1, u2⟩ := unit_bounds ha h1 hβ1 hβ2
      obtain ⟨v1, v2⟩ := unit_bounds ha h1 hab hb63
      obtain ⟨f1, f2⟩ := floor_unit h u1 u2
      obtain ⟨g1, g2⟩ := floor_unit isDouble_id v1 v2
      simp only [id] at g1 g2
      rcases lt_or_gt_of_ne ha with han | hap <;> rcases lt_or_gt_of_ne hb with hbn | hbp
      · have q1 : (a : ℚ) < 0 := by exact_mod_cast han
        have q2 : (b : ℚ) < 0 := by exact_mod_cast hbn
        rw [abs_of_neg q1, abs_of_neg (hneg hbn), neg_div_neg_eq] at f1
        rw [abs_of_neg q1, abs_of_neg q2, neg_div_neg_eq] at g1
        rw [f1, g1]
      · have q1 : (a : ℚ) < 0 := by exact_mod_cast han
        have q2 : (0 : ℚ) < b := by exact_mod_cast hbp
        rw [abs_of_neg q1, abs_of_pos (hpos hbp), neg_div, neg_neg] at f2
        rw [abs_of_neg q1, abs_of_pos q2, neg_div, neg_neg] at g2
        rw [f2, g2]
      · have q1 : (0 : ℚ) < a := by exact_mod_cast hap
        have q2 : (b : ℚ) < 0 := by exact_mod_cast hbn
        rw [abs_of_pos q1, abs_of_neg (hneg hbn), div_neg, neg_neg] at f2
        rw [abs_of_pos q1, abs_of_neg q2, div_neg, neg_neg] at g2
        rw [f2, g2]
      · have q1 : (0 : ℚ) < a := by exact_mod_cast hap
        have q2 : (0 : ℚ) < b := by exact_mod_cast hbp
        rw [abs_of_pos q1, abs_of_pos (hpos hbp)] at f1
        rw [abs_of_pos q1, abs_of_pos q2] at g1
        rw [f1, g1]

theorem ceil_double {fl : ℚ → ℚ} (h : IsDouble fl) (a b : ℤ) (hb : b ≠ 0)
    (hs : DivOk a b) : ⌈fl (fl a / fl b)⌉ = ceilQ a b := by
  have ha : |a| ≤ 2 ^ 52 := by
    have := abs_nonneg b
    rcases hs with hs | hs <;> omega
  have h1 := floor_double h.neg a (-b) (by omega) (by unfold DivOk at *; rwa [abs_neg])
  rw [h.neg.int a (by omega)] at h1
  rw [h.int a (by omega)]
  unfold floorQ at h1
  unfold ceilQ
  push_cast at h1
  rw [neg_neg, div_neg, neg_neg, div_neg, Int.floor_neg, Int.floor_neg] at h1
  omega

/-! ## Operations during code generation -/

variable {ρ : Nat → Int}

theorem toVal_eval (a : IE) : a.toVal.eval ρ = a.eval ρ := by
  cases a <;> simp [IE.toVal, IE.eval, Val.eval]

theorem ptoVal_eval (a : PIE) : a.toVal.eval ρ = a.eval ρ := by
  cases a <;> simp [PIE.toVal, PIE.eval, PVal.eval]

theorem toAff_eval {a : IE} {e : Aff} (h : a.toAff = some e) : e.eval ρ = a.eval ρ := by
  cases a <;> simp [IE.toAff] at h <;> subst h <;> rfl

theorem lit?_eq {a : IE} {n : Int} (h : a.lit? = some n) : a = .lit n := by
  cases a <;> simp [IE.lit?] at h; rw [h]

theorem toAff_of_isAffine {a : IE} (h : a.isAffine = true) : ∃ e, a.toAff = some e := by
  cases a
  · exact ⟨_, rfl⟩
  · exact ⟨_, rfl⟩
  · simp [IE.isAffine] at h

/-- What is used of `simplifyAffineExpr`: a constant it finds is the value. -/
def SimpOk (simp : Aff → Option Int) : Prop :=
  ∀ a n, simp a = some n → ∀ ρ m, a.eval ρ = some m → m = n

theorem mkAff_eval {simp : Aff → Option Int} (hs : SimpOk simp) {a : Aff} {n : Int}
    (h : a.eval ρ = some n) : (mkAff simp a).eval ρ = some n := by
  unfold mkAff
  split
  · rename_i m hm
    rw [hs a m hm ρ n h]; rfl
  · exact h

theorem cmp_eval (p : Cmp) {a b : IE} {x y : Int} (ha : a.eval ρ = some x) (hb : b.eval ρ = some y) :
    (IE.cmp p a b).eval ρ = some (p.holds x y) := by
  unfold IE.cmp
  split
  · rename_i u v h1 h2
    rw [lit?_eq h1] at ha
    rw [lit?_eq h2] at hb
    simp only [IE.eval, Option.some.injEq] at ha hb
    subst ha hb; rfl
  · simp [PIE.eval, PVal.eval, toVal_eval, ha, hb]

theorem select_eval {c : PIE} {t f : IE} {b : Bool} {x y : Int} (hc : c.eval ρ = some b)
    (ht : t.eval ρ = some x) (hf : f.eval ρ = some y) :
    (IE.select c t f).eval ρ = some (if b then x else y) := by
  cases c with
  | lit b' =>
    simp only [PIE.eval, Option.some.injEq] at hc
    subst hc
    cases b' <;> simp [IE.select, ht, hf]
  | val p =>
    simp only [PIE.eval] at hc
    show Val.eval ρ (.select p t.toVal f.toVal) = _
    simp [Val.eval, toVal_eval, hc, ht, hf, lift2]

theorem and_eval {a b : PIE} {x y : Bool} (ha : a.eval ρ = some x) (hb : b.eval ρ = some y) :
    (PIE.and a b).eval ρ = some (x && y) := by
  cases a <;> cases b <;> simp only [PIE.eval, Option.some.injEq] at ha hb
  · subst ha hb
    rename_i u v
    cases u <;> cases v <;> rfl
  · subst ha
    rename_i u p
    cases u <;> simp [PIE.and, PIE.eval, hb]
  · subst hb
    rename_i p v
    cases v <;> simp [PIE.and, PIE.eval, ha]
  · simp [PIE.and, PIE.eval, PVal.eval, ha, hb]

theorem or_eval {a b : PIE} {x y : Bool} (ha : a.eval ρ = some x) (hb : b.eval ρ = some y) :
    (PIE.or a b).eval ρ = some (x || y) := by
  cases a <;> cases b <;> simp only [PIE.eval, Option.some.injEq] at ha hb
  · subst ha hb
    rename_i u v
    cases u <;> cases v <;> rfl
  · subst ha
    rename_i u p
    cases u <;> simp [PIE.or, PIE.eval, hb]
  · subst hb
    rename_i p v
    cases v <;> simp [PIE.or, PIE.eval, ha]
  · simp [PIE.or, PIE.eval, PVal.eval, ha, hb]

theorem not_eval {a : PIE} {x : Bool} (ha : a.eval ρ = some x) :
    (PIE.not a).eval ρ = some (!x) := by
  cases a <;> simp only [PIE.eval, Option.some.injEq] at ha
  · subst ha
    rename_i u
    cases u <;> rfl
  · simp [PIE.not, PIE.eval, PVal.eval, ha]

/-! ### Minimum and maximum -/

/-- Values of a list of index expressions. -/
def ieEvals (ρ : Nat → Int) : List IE → Option (List Int)
  | [] => some []
  | a :: l => (a.eval ρ).bind fun x => (ieEvals ρ l).map fun xs => x :: xs

theorem ieEvals_cons {a : IE} {l : List IE} {zs : List Int} (h : ieEvals ρ (a :: l) = some zs) :
    ∃ x xs, zs = x :: xs ∧ a.eval ρ = some x ∧ ieEvals ρ l = some xs := by
  simp only [ieEvals, Option.bind_eq_some_iff, Option.map_eq_some_iff] at h
  obtain ⟨x, hx, xs, hxs, rfl⟩ := h
  exact ⟨x, xs, rfl, hx, hxs⟩

theorem allLits_eval {l : List IE} {ns : List Int} (h : allLits l = some ns) :
    ieEvals ρ l = some ns := by
  induction l generalizing ns with
  | nil => simpa [allLits, ieEvals] using h
  | cons a l ih =>
    simp only [allLits, Option.bind_eq_some_iff, Option.map_eq_some_iff] at h
    obtain ⟨x, hx, xs, hxs, rfl⟩ := h
    rw [lit?_eq hx]
    simp [ieEvals, IE.eval, ih hxs]

theorem toAffs_eval {l : List IE} {as : List Aff} (h : toAffs l = some as) :
    affEvals ρ as = ieEvals ρ l := by
  induction l generalizing as with
  | nil => simp [toAffs] at h; subst h; rfl
  | cons a l ih =>
    simp only [toAffs, Option.bind_eq_some_iff, Option.map_eq_some_iff] at h
    obtain ⟨x, hx, xs, hxs, rfl⟩ := h
    simp [ieEvals, affEvals, ih hxs, toAff_eval hx]

theorem foldl_min_eq (xs : List Int) (n : Int) :
    xs.foldl (fun res aa => if aa < res then aa else res) n = least n xs := by
  unfold least
  induction xs generalizing n with
  | nil => rfl
  | cons x xs ih =>
    simp only [List.foldl_cons]
    rw [ih]
    congr 1
    split <;> omega

theorem foldl_max_eq (xs : List Int) (n : Int) :
    xs.foldl (fun res aa => if aa > res then aa else res) n = greatest n xs := by
  unfold greatest
  induction xs generalizing n with
  | nil => rfl
  | cons x xs ih =>
    simp only [List.foldl_cons]
    rw [ih]
    congr 1
    split <;> omega

theorem foldl_minVal_eval {l : List IE} {xs : List Int} {x : IE} {n : Int}
    (hx : x.eval ρ = some n) (hl : ieEvals ρ l = some xs) :
    (l.foldl (fun res aa => IE.val (IE.select (IE.cmp .lt aa res) aa res).toVal) x).eval ρ =
      some (least n xs) := by
  induction l generalizing xs x n with
  | nil => simp [ieEvals] at hl; subst hl; simpa [least] using hx
  | cons a l ih =>
    obtain ⟨y, ys, rfl, hy, hys⟩ := ieEvals_cons hl
    simp only [List.foldl_cons]
    have : (IE.val (IE.select (IE.cmp .lt a x) a x).toVal).eval ρ = some (min n y) := by
      show Val.eval ρ _ = _
      rw [toVal_eval, select_eval (cmp_eval .lt hy hx) hy hx]
      simp only [Cmp.holds, decide_eq_true_eq]
      congr 1
      split <;> omega
    rw [ih this hys]
    rfl

theorem foldl_maxVal_eval {l : List IE} {xs : List Int} {x : IE} {n : Int}
    (hx : x.eval ρ = some n) (hl : ieEvals ρ l = some xs) :
    (l.foldl (fun res aa => IE.val (IE.select (IE.cmp .gt aa res) aa res).toVal) x).eval ρ =
      some (greatest n xs) := by
  induction l generalizing xs x n with
  | nil => simp [ieEvals] at hl; subst hl; simpa [greatest] using hx
  | cons a l ih =>
    obtain ⟨y, ys, rfl, hy, hys⟩ := ieEvals_cons hl
    simp only [List.foldl_cons]
    have : (IE.val (IE.select (IE.cmp .gt a x) a x).toVal).eval ρ = some (max n y) := by
      show Val.eval ρ _ = _
      rw [toVal_eval, select_eval (cmp_eval .gt hy hx) hy hx]
      simp only [Cmp.holds, decide_eq_true_eq]
      congr 1
      split <;> omega
    rw [ih this hys]
    rfl

theorem min_eval {x : IE} {l : List IE} {n : Int} {xs : List Int} (hx : x.eval ρ = some n)
    (hl : ieEvals ρ l = some xs) : (IE.min x l).eval ρ = some (least n xs) := by
  unfold IE.min
  split
  · simp [ieEvals] at hl; subst hl; simpa [least] using hx
  · have hxl : ieEvals ρ (x :: l) = some (n :: xs) := by simp [ieEvals, hx, hl]
    split
    · rename_i m ms hlit
      rw [allLits_eval hlit] at hxl
      simp only [Option.some.injEq, List.cons.injEq] at hxl
      obtain ⟨rfl, rfl⟩ := hxl
      rw [foldl_min_eq]; rfl
    · split
      · rename_i a as haff
        have := toAffs_eval (ρ := ρ) haff
        rw [hxl] at this
        simp only [affEvals, Option.bind_eq_some_iff, Option.map_eq_some_iff, List.cons.injEq] at this
        obtain ⟨u, hu, us, hus, rfl, rfl⟩ := this
        simp [IE.eval, Val.eval, hu, hus]
      · exact foldl_minVal_eval hx hl

theorem max_eval {x : IE} {l : List IE} {n : Int} {xs : List Int} (hx : x.eval ρ = some n)
    (hl : ieEvals ρ l = some xs) : (IE.max x l).eval ρ = some (greatest n xs) := by
  unfold IE.max
  split
  · simp [ieEvals] at hl; subst hl; simpa [greatest] using hx
  · have hxl : ieEvals ρ (x :: l) = some (n :: xs) := by simp [ieEvals, hx, hl]
    split
    · rename_i m ms hlit
      rw [allLits_eval hlit] at hxl
      simp only [Option.some.injEq, List.cons.injEq] at hxl
      obtain ⟨rfl, rfl⟩ := hxl
      rw [foldl_max_eq]; rfl
    · split
      · rename_i a as haff
        have := toAffs_eval (ρ := ρ) haff
        rw [hxl] at this
        simp only [affEvals, Option.bind_eq_some_iff, Option.map_eq_some_iff, List.cons.injEq] at this
        obtain ⟨u, hu, us, hus, rfl, rfl⟩ := this
        simp [IE.eval, Val.eval, hu, hus]
      · exact foldl_maxVal_eval hx hl

theorem clamp_eval {a lo hi : IE} {x l h : Int} (ha : a.eval ρ = some x) (hlo : lo.eval ρ = some l)
    (hhi : hi.eval ρ = some h) (hle : l ≤ h) : (IE.clamp a lo hi).eval ρ = some (max l (min x h)) := by
  unfold IE.clamp
  split
  · rename_i x' l' h' e1 e2 e3
    have h1 := lit?_eq e1; have h2 := lit?_eq e2; have h3 := lit?_eq e3
    subst h1 h2 h3
    simp only [IE.eval, Option.some.injEq] at ha hlo hhi
    subst ha hlo hhi
    split
    · simp only [IE.eval]; congr 1; omega
    · split
      · simp only [IE.eval]; congr 1; omega
      · simp only [IE.eval]; congr 1; omega
  · simp only
    have h1 := select_eval (cmp_eval .lt ha hlo) hlo ha
    rw [select_eval (cmp_eval .gt h1 hhi) hhi h1]
    simp only [Cmp.holds, decide_eq_true_eq]
    congr 1
    split <;> split at * <;> omega

/-! ### Binary operations -/

theorem mapOpt_eval {f : Aff → Option IE} {g : Int → Int}
    (hf : ∀ e x, e.eval ρ = some x → ∃ r, f e = some r ∧ r.eval ρ = some (g x))
    {l : List Aff} {xs : List Int} (hl : affEvals ρ l = some xs) :
    ∃ rs, mapOpt f l = some rs ∧ ieEvals ρ rs = some (xs.map g) := by
  induction l generalizing xs with
  | nil => simp [affEvals] at hl; subst hl; exact ⟨[], rfl, rfl⟩
  | cons a l ih =>
    simp only [affEvals, Option.bind_eq_some_iff, Option.map_eq_some_iff] at hl
    obtain ⟨x, hx, ys, hys, rfl⟩ := hl
    obtain ⟨r, hr, hre⟩ := hf a x hx
    obtain ⟨rs, hrs, hrse⟩ := ih hys
    exact ⟨r :: rs, by simp [mapOpt, hr, hrs], by simp [ieEvals, hre, hrse]⟩

theorem least_map_mono {g : Int → Int} (hg : ∀ x y, x ≤ y → g x ≤ g y) (n : Int) (xs : List Int) :
    least (g n) (xs.map g) = g (least n xs) := by
  unfold least
  induction xs generalizing n with
  | nil => rfl
  | cons x xs ih =>
    simp only [List.map_cons, List.foldl_cons]
    rw [← ih]
    congr 1
    rcases Int.le_total n x with h | h
    · rw [Int.min_eq_left h, Int.min_eq_left (hg _ _ h)]
    · rw [Int.min_eq_right h, Int.min_eq_right (hg _ _ h)]

theorem greatest_map_mono {g : Int → Int} (hg : ∀ x y, x ≤ y → g x ≤ g y) (n : Int) (xs : List Int) :
    greatest (g n) (xs.map g) = g (greatest n xs) := by
  unfold greatest
  induction xs generalizing n with
  | nil => rfl
  | cons x xs ih =>
    simp only [List.map_cons, List.foldl_cons]
    rw [← ih]
    congr 1
    rcases Int.le_total n x with h | h
    · rw [Int.max_eq_right h, Int.max_eq_right (hg _ _ h)]
    · rw [Int.max_eq_left h, Int.max_eq_left (hg _ _ h)]

theorem rebuild_eval {f : Aff → Option IE} {g : Int → Int} (hg : ∀ x y, x ≤ y → g x ≤ g y)
    (hf : ∀ e x, e.eval ρ = some x → ∃ r, f e = some r ∧ r.eval ρ = some (g x))
    (isMin : Bool) {a : Aff} {l : List Aff} {x : Int}
    (h : (if isMin then Val.affMin a l else Val.affMax a l).eval ρ = some x) :
    ∃ r, rebuild isMin f a l = some r ∧ r.eval ρ = some (g x) := by
  cases isMin
  · simp only [Bool.false_eq_true, if_false, Val.eval, Option.bind_eq_some_iff,
      Option.map_eq_some_iff] at h
    obtain ⟨n, hn, xs, hxs, rfl⟩ := h
    obtain ⟨r, hr, hre⟩ := hf a n hn
    obtain ⟨rs, hrs, hrse⟩ := mapOpt_eval hf hxs
    refine ⟨IE.max r rs, by simp [rebuild, hr, hrs], ?_⟩
    rw [max_eval hre hrse, greatest_map_mono hg]
  · simp only [if_true, Val.eval, Option.bind_eq_some_iff, Option.map_eq_some_iff] at h
    obtain ⟨n, hn, xs, hxs, rfl⟩ := h
    obtain ⟨r, hr, hre⟩ := hf a n hn
    obtain ⟨rs, hrs, hrse⟩ := mapOpt_eval hf hxs
    refine ⟨IE.min r rs, by simp [rebuild, hr, hrs], ?_⟩
    rw [min_eval hre hrse, least_map_mono hg]

theorem minMax?_eval {a : IE} {m : Bool} {e : Aff} {l : List Aff} (h : a.minMax? = some (m, e, l)) :
    a = .val (if m then Val.affMin e l else Val.affMax e l) := by
  unfold IE.minMax? at h
  split at h
  · simp only [Option.some.injEq, Prod.mk.injEq] at h
    obtain ⟨rfl, rfl, rfl⟩ := h; rfl
  · simp only [Option.some.injEq, Prod.mk.injEq] at h
    obtain ⟨rfl, rfl, rfl⟩ := h; rfl
  · simp at h

/-- Propagation is right if the operation is monotone in the operand that is a min or max. -/
theorem propagate_eval {simp : Aff → Option Int} (hs : SimpOk simp) {f : IE → IE → Option IE}
    {op : Int → Int → Int} {a b : IE} {x y : Int} (ha : a.eval ρ = some x) (hb : b.eval ρ = some y)
    (hf : ∀ a b x y, a.isAffine = true → b.isAffine = true → a.eval ρ = some x → b.eval ρ = some y →
      ∃ r, f a b = some r ∧ r.eval ρ = some (op x y))
    (hl : ∀ x x' y, x ≤ x' → op x y ≤ op x' y)
    (hr : b.minMax? = none ∨ ∀ x y y', y ≤ y' → op x y ≤ op x y') :
    ∃ r, propagate simp f a b = some r ∧ ∀ r', r = some r' → r'.eval ρ = some (op x y) := by
  have hmk : ∀ e, (mkAff simp e).isAffine = true := by
    intro e; unfold mkAff; split <;> rfl
  unfold propagate
  split
  · rename_i m e l h1 h2
    split
    · rename_i hba
      have ha' := minMax?_eval h1
      subst ha'
      obtain ⟨r, hr1, hr2⟩ := rebuild_eval (g := fun z => op z y) (fun u v huv => hl u v y huv)
        (f := fun e => f (mkAff simp e) b)
        (fun e z hz => hf _ b z y (hmk e) hba (mkAff_eval hs hz) hb) m ha
      exact ⟨some r, by rw [hr1]; rfl, fun r' hr' => by
        simp only [Option.some.injEq] at hr'; rw [← hr']; exact hr2⟩
    · exact ⟨none, rfl, by simp⟩
  · rename_i m e l h1 h2
    split
    · rename_i haa
      have hb' := minMax?_eval h2
      rcases hr with hr | hr
      · rw [hr] at h2; simp at h2
      subst hb'
      obtain ⟨r, hr1, hr2⟩ := rebuild_eval (g := fun z => op x z) (fun u v huv => hr x u v huv)
        (f := fun e => f a (mkAff simp e))
        (fun e z hz => hf a _ x z haa (hmk e) ha (mkAff_eval hs hz)) m hb
      exact ⟨some r, by rw [hr1]; rfl, fun r' hr' => by
        simp only [Option.some.injEq] at hr'; rw [← hr']; exact hr2⟩
    · exact ⟨none, rfl, by simp⟩
  · exact ⟨none, rfl, by simp⟩

theorem binaryOp_eval {simp : Aff → Option Int} {prop awlb nA nB : Bool} {neutral : Int}
    {litF : Int → Int → Option Int} {affF : IE → IE → Option IE} {valF : Val → Val → Val}
    {a b : IE} {x y r : Int} (ha : a.eval ρ = some x) (hb : b.eval ρ = some y)
    (hnA : nA = true → x = neutral → r = y) (hnB : nB = true → y = neutral → r = x)
    (hlit : a = .lit x → b = .lit y → litF x y = some r)
    (haff : a.isAffine = true → b.isAffine = true → (awlb = true → b = .lit y) →
      ∃ e, affF a b = some e ∧ e.eval ρ = some r)
    (hprop : prop = true → ∃ e, propagate simp affF a b = some e ∧
      ∀ e', e = some e' → e'.eval ρ = some r)
    (hval : a.isAffine = false ∨ b.isAffine = false ∨ awlb = true →
      (valF a.toVal b.toVal).eval ρ = some r) :
    ∃ e, binaryOp simp prop awlb nA nB neutral litF affF valF a b = some e ∧ e.eval ρ = some r := by
  have hla : ∀ n, a.lit? = some n → a = .lit x := fun n hn => by
    rw [lit?_eq hn] at ha ⊢; simp only [IE.eval, Option.some.injEq] at ha; rw [ha]
  have hlb : ∀ n, b.lit? = some n → b = .lit y := fun n hn => by
    rw [lit?_eq hn] at hb ⊢; simp only [IE.eval, Option.some.injEq] at hb; rw [hb]
  unfold binaryOp
  simp only
  split
  · rename_i hc
    simp only [Bool.and_eq_true, beq_iff_eq] at hc
    have := lit?_eq hc.2
    rw [this] at ha
    simp only [IE.eval, Option.some.injEq] at ha
    exact ⟨b, rfl, by rw [hb, hnA hc.1.2 ha.symm]⟩
  · split
    · rename_i hc
      simp only [Bool.and_eq_true, beq_iff_eq] at hc
      have := lit?_eq hc.2
      rw [this] at hb
      simp only [IE.eval, Option.some.injEq] at hb
      exact ⟨a, rfl, by rw [ha, hnB hc.1 hb.symm]⟩
    · split
      · rename_i u v h1 h2
        have e1 := hla _ h1
        have e2 := hlb _ h2
        have h3 := lit?_eq h1
        have h4 := lit?_eq h2
        rw [e1] at h3; rw [e2] at h4
        simp only [IE.lit.injEq] at h3 h4
        subst h3 h4
        exact ⟨.lit r, by rw [hlit e1 e2]; rfl, rfl⟩
      · rename_i hnl
        have hnlit : (a.lit?.isSome && b.lit?.isSome) = false := by
          cases h1 : a.lit? with
          | none => rfl
          | some u =>
            cases h2 : b.lit? with
            | none => rfl
            | some v => exact absurd h2 (hnl u v h1)
        rw [hnlit, Bool.false_or]
        split
        · rename_i hres
          simp only [Bool.and_eq_true, Bool.or_eq_true, Bool.not_eq_true'] at hres
          refine haff hres.1.1 hres.1.2 fun hw => ?_
          rcases hres.2 with h | h
          · rw [hw] at h; simp at h
          · obtain ⟨n, hn⟩ := Option.isSome_iff_exists.1 h
            exact hlb n hn
        · rename_i hres
          have hv : (valF a.toVal b.toVal).eval ρ = some r := by
            apply hval
            cases h1 : a.isAffine
            · exact Or.inl rfl
            · cases h2 : b.isAffine
              · exact Or.inr (Or.inl rfl)
              · refine Or.inr (Or.inr ?_)
                cases awlb
                · simp [h1, h2] at hres
                · rfl
          split
          · rename_i hp
            obtain ⟨e, he, hev⟩ := hprop hp
            rw [he]
            cases e with
            | none => exact ⟨_, rfl, hv⟩
            | some e' => exact ⟨_, rfl, hev e' rfl⟩
          · exact ⟨_, rfl, hv⟩

theorem affAdd_eval {simp : Aff → Option Int} (hs : SimpOk simp) (a b : IE) (x y : Int)
    (haa : a.isAffine = true) (hba : b.isAffine = true) (ha : a.eval ρ = some x)
    (hb : b.eval ρ = some y) : ∃ r, affAdd simp a b = some r ∧ r.eval ρ = some (x + y) := by
  obtain ⟨e, he⟩ := toAff_of_isAffine haa
  obtain ⟨g, hg⟩ := toAff_of_isAffine hba
  refine ⟨mkAff simp (.add e g), by simp [affAdd, he, hg], mkAff_eval hs ?_⟩
  simp [Aff.eval, toAff_eval he, toAff_eval hg, ha, hb, lift2]

theorem affSub_eval {simp : Aff → Option Int} (hs : SimpOk simp) (a b : IE) (x y : Int)
    (haa : a.isAffine = true) (hba : b.isAffine = true) (ha : a.eval ρ = some x)
    (hb : b.eval ρ = some y) : ∃ r, affSub simp a b = some r ∧ r.eval ρ = some (x - y) := by
  obtain ⟨e, he⟩ := toAff_of_isAffine haa
  obtain ⟨g, hg⟩ := toAff_of_isAffine hba
  refine ⟨mkAff simp (.add e (.mul g (-1))), by simp [affSub, he, hg], mkAff_eval hs ?_⟩
  simp [Aff.eval, toAff_eval he, toAff_eval hg, ha, hb, lift2]
  omega

theorem add_eval {simp : Aff → Option Int} (hs : SimpOk simp) {a b : IE} {x y : Int}
    (ha : a.eval ρ = some x) (hb : b.eval ρ = some y) :
    ∃ e, a.add simp b = some e ∧ e.eval ρ = some (x + y) := by
  unfold IE.add
  refine binaryOp_eval ha hb (fun _ h => by omega) (fun _ h => by omega) (fun _ _ => rfl)
    (fun h1 h2 _ => affAdd_eval hs a b x y h1 h2 ha hb) (fun _ => ?_) (fun _ => ?_)
  · exact propagate_eval hs ha hb (fun a b x y => affAdd_eval hs a b x y)
      (fun _ _ _ h => by omega) (Or.inr fun _ _ _ h => by omega)
  · simp [Val.eval, toVal_eval, ha, hb, lift2]

theorem sub_eval {simp : Aff → Option Int} (hs : SimpOk simp) {a b : IE} {x y : Int}
    (ha : a.eval ρ = some x) (hb : b.eval ρ = some y) (hm : b.minMax? = none) :
    ∃ e, a.sub simp b = some e ∧ e.eval ρ = some (x - y) := by
  unfold IE.sub
  refine binaryOp_eval ha hb (fun h => by simp at h) (fun _ h => by omega) (fun _ _ => rfl)
    (fun h1 h2 _ => affSub_eval hs a b x y h1 h2 ha hb) (fun _ => ?_) (fun _ => ?_)
  · exact propagate_eval hs ha hb (fun a b x y => affSub_eval hs a b x y)
      (fun _ _ _ h => by omega) (Or.inl hm)
  · simp [Val.eval, toVal_eval, ha, hb, lift2]

theorem mul_eval' {simp : Aff → Option Int} (hs : SimpOk simp) {a b : IE} {x y : Int}
    (ha : a.eval ρ = some x) (hb : b.eval ρ = some y) :
    ∃ e, binaryOp simp false true true true 1 (fun x y => some (x * y)) (affMul simp) .muli a b =
      some e ∧ e.eval ρ = some (x * y) := by
  refine binaryOp_eval ha hb (fun _ h => by rw [h, Int.one_mul]) (fun _ h => by rw [h, Int.mul_one])
    (fun _ _ => rfl) (fun h1 _ h3 => ?_) (fun h => by simp at h) (fun _ => ?_)
  · have := h3 rfl
    subst this
    obtain ⟨e, he⟩ := toAff_of_isAffine h1
    refine ⟨mkAff simp (.mul e y), by simp [affMul, he, IE.lit?], mkAff_eval hs ?_⟩
    simp [Aff.eval, toAff_eval he, ha]
  · simp [Val.eval, toVal_eval, ha, hb, lift2]

theorem mul_eval {simp : Aff → Option Int} (hs : SimpOk simp) {a b : IE} {x y : Int}
    (ha : a.eval ρ = some x) (hb : b.eval ρ = some y) :
    ∃ e, a.mul simp b = some e ∧ e.eval ρ = some (x * y) := by
  unfold IE.mul
  simp only
  split
  · rw [Int.mul_comm]; exact mul_eval' hs hb ha
  · exact mul_eval' hs ha hb

theorem floorQ_one (x : Int) : floorQ x 1 = x := by simp [floorQ]

theorem ceilQ_one (x : Int) : ceilQ x 1 = x := by simp [ceilQ]

theorem floorDiv_eval {fl : ℚ → ℚ} (hfl : IsDouble fl) {simp : Aff → Option Int} (hs : SimpOk simp)
    {a b : IE} {x y : Int} (ha : a.eval ρ = some x) (hb : b.eval ρ = some y) (hy : y ≠ 0)
    (hxy : DivOk x y) :
    ∃ e, a.floorDiv fl simp b = some e ∧ e.eval ρ = some (floorQ x y) := by
  unfold IE.floorDiv
  have hv : (Val.floordivsi a.toVal b.toVal).eval ρ = some (floorQ x y) := by
    simp [Val.eval, toVal_eval, ha, hb, lift2, hy]
  refine binaryOp_eval ha hb (fun h => by simp at h) (fun _ h => by rw [h, floorQ_one])
    (fun _ _ => ?_) (fun h1 _ h3 => ?_) (fun h => by simp at h) (fun _ => hv)
  · unfold litFloorDiv
    rw [if_neg hy, floor_double hfl x y hy hxy]
  · have := h3 rfl
    subst this
    obtain ⟨e, he⟩ := toAff_of_isAffine h1
    by_cases hgt : y > 1
    · refine ⟨mkAff simp (.floorDiv e y), by simp [affFloorDiv, he, IE.lit?, hgt], mkAff_eval hs ?_⟩
      have : ¬ y ≤ 0 := by omega
      simp [Aff.eval, toAff_eval he, ha, this]
    · exact ⟨.val (.floordivsi a.toVal (IE.lit y).toVal), by simp [affFloorDiv, IE.lit?, hgt], hv⟩

theorem ceilDiv_eval {fl : ℚ → ℚ} (hfl : IsDouble fl) {simp : Aff → Option Int} (hs : SimpOk simp)
    {a b : IE} {x y : Int} (ha : a.eval ρ = some x) (hb : b.eval ρ = some y) (hy : y ≠ 0)
    (hxy : DivOk x y) :
    ∃ e, a.ceilDiv fl simp b = some e ∧ e.eval ρ = some (ceilQ x y) := by
  unfold IE.ceilDiv
  have hv : (Val.ceildivsi a.toVal b.toVal).eval ρ = some (ceilQ x y) := by
    simp [Val.eval, toVal_eval, ha, hb, lift2, hy]
  refine binaryOp_eval ha hb (fun h => by simp at h) (fun _ h => by rw [h, ceilQ_one])
    (fun _ _ => ?_) (fun h1 _ h3 => ?_) (fun h => by simp at h) (fun _ => hv)
  · unfold litCeilDiv
    rw [if_neg hy, ceil_double hfl x y hy hxy]
  · have := h3 rfl
    subst this
    obtain ⟨e, he⟩ := toAff_of_isAffine h1
    by_cases hgt : y > 1
    · refine ⟨mkAff simp (.ceilDiv e y), by simp [affCeilDiv, he, IE.lit?, hgt], mkAff_eval hs ?_⟩
      have : ¬ y ≤ 0 := by omega
      simp [Aff.eval, toAff_eval he, ha, this]
    · exact ⟨.val (.ceildivsi a.toVal (IE.lit y).toVal), by simp [affCeilDiv, IE.lit?, hgt], hv⟩

theorem mod_eval {simp : Aff → Option Int} (hs : SimpOk simp)
    {a b : IE} {x y : Int} (ha : a.eval ρ = some x) (hb : b.eval ρ = some y) (hy : 1 ≤ y)
    (hx : 0 ≤ x) :
    ∃ e, a.mod simp b = some e ∧ e.eval ρ = some (x % y) := by
  unfold IE.mod
  have hy0 : y ≠ 0 := by omega
  refine binaryOp_eval ha hb (fun h => by simp at h) (fun h => by simp at h)
    (fun _ _ => ?_) (fun h1 _ h3 => ?_) (fun h => by simp at h) (fun _ => ?_)
  · unfold litMod
    rw [if_neg (by omega)]
  · have := h3 rfl
    subst this
    obtain ⟨e, he⟩ := toAff_of_isAffine h1
    have hge : 0 ≤ y := by omega
    refine ⟨mkAff simp (.mod e y), by simp [affMod, he, IE.lit?, hge], mkAff_eval hs ?_⟩
    have : ¬ y ≤ 0 := by omega
    simp [Aff.eval, toAff_eval he, ha, this]
  · simp [Val.eval, toVal_eval, ha, hb, lift2, hy0, Int.tmod_eq_emod_of_nonneg hx]

end Verif.IndexExpr
