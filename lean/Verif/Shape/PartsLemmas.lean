import Verif.Shape.PartsModel
import Verif.Shape.BroadcastLemmas
import Mathlib.Data.List.Perm.Lattice
import Mathlib.Data.Int.Interval

namespace Verif.Shape
open Verif.IndexExpr

variable {κ : Nat → Option Int} {ρ : Nat → Int}

/-! ## Split -/

theorem range_sum (q r : Nat) : ∀ n, ((List.range n).map fun i => if i < r then q + 1 else q).sum =
    n * q + min n r
  | 0 => by simp
  | n + 1 => by
    rw [List.range_succ, List.map_append, List.sum_append, range_sum q r n]
    simp only [List.map_cons, List.map_nil, List.sum_cons, List.sum_nil, Nat.add_zero, Nat.add_mul, Nat.one_mul]
    split <;> omega

theorem floorQ_of {d n c : Int} (hn : 0 < n) (h1 : c * n ≤ d) (h2 : d < (c + 1) * n) : floorQ d n = c := by
  unfold floorQ
  have hn' : (0 : ℚ) < n := by exact_mod_cast hn
  rw [Int.floor_eq_iff, le_div_iff₀ hn', div_lt_iff₀ hn']
  exact ⟨by exact_mod_cast h1, by exact_mod_cast h2⟩

theorem ceilQ_of {d n c : Int} (hn : 0 < n) (h1 : d ≤ c * n) (h2 : (c - 1) * n < d) : ceilQ d n = c := by
  unfold ceilQ
  have hn' : (0 : ℚ) < n := by exact_mod_cast hn
  rw [Int.ceil_eq_iff, lt_div_iff₀ hn', div_le_iff₀ hn']
  exact ⟨by exact_mod_cast h2, by exact_mod_cast h1⟩

theorem floorQ_div {d n : Int} (hn : 0 < n) : floorQ d n = d / n := by
  have := Int.emod_add_mul_ediv d n
  have := Int.emod_nonneg d (by omega : n ≠ 0)
  have := Int.emod_lt_of_pos d hn
  apply floorQ_of hn <;> nlinarith

theorem ceilQ_div {d n : Int} (hn : 0 < n) : ceilQ d n = if d % n = 0 then d / n else d / n + 1 := by
  have h1 := Int.emod_add_mul_ediv d n
  have h2 := Int.emod_nonneg d (by omega : n ≠ 0)
  have h3 := Int.emod_lt_of_pos d hn
  split
  · apply ceilQ_of hn <;> nlinarith
  · have : 1 ≤ d % n := by omega
    apply ceilQ_of hn <;> nlinarith

theorem divOk_of {d n : Int} (hd : 0 ≤ d) (hn : 0 < n) (h : d + n ≤ 2 ^ 52) : DivOk d n := by
  left
  rw [abs_of_nonneg hd, abs_of_pos hn]
  exact h

/-- The sizes computed when none are given. -/
theorem splitDims_known {n : Nat} {x : Nat} {d : Int} (hκ : ∀ x n, κ x = some n → ρ x = n)
    (hn : 0 < n) (hd : 0 ≤ d) (hsz : d + n ≤ 2 ^ 52) (hx : κ x = some d) :
    ∃ l, splitDims κ true n [] (.sym x) = some l ∧ l.length = n ∧
      ∀ i < n, ∃ e, l[i]? = some e ∧ e.Ok ρ ∧
        e.eval ρ = some (if (i : Int) < d % n then d / n + 1 else d / n) := by
  have hρ := hκ x d hx
  unfold splitDims
  simp only [ne_eq, not_true_eq_false, if_false, litOf, hx]
  rw [if_neg (by simp)]
  refine ⟨_, rfl, by simp, fun i hi => ?_⟩
  refine ⟨_, by rw [List.getElem?_map, List.getElem?_range hi]; rfl, ?_⟩
  have hdo : DivOk d n := divOk_of hd (by omega) hsz
  have hn0 : (n : Int) ≠ 0 := by omega
  by_cases hi' : (i : Int) < d % n
  · simp only [if_pos hi']
    refine ⟨⟨trivial, trivial, d, n, by simp [Expr.eval, hρ], by simp [Expr.eval], hn0, hdo⟩, ?_⟩
    simp only [Expr.eval, lift2, Option.bind_some, hn0, if_false, hρ, Option.some.injEq]
    rw [ceilQ_div (by omega), if_neg (by omega)]
  · simp only [if_neg hi']
    refine ⟨⟨trivial, trivial, d, n, by simp [Expr.eval, hρ], by simp [Expr.eval], hn0, hdo⟩, ?_⟩
    simp only [Expr.eval, lift2, Option.bind_some, hn0, if_false, hρ, Option.some.injEq]
    exact floorQ_div (by omega)

theorem splitDims_divisible {numOutputs : Bool} {n : Nat} {x : Nat} {c : Int}
    (hκ : ∀ x n, κ x = some n → ρ x = n)
    (hn : 0 < n) (hd : 0 ≤ c) (hsz : n * c + n ≤ 2 ^ 52) (hx : ρ x = n * c) :
    ∃ l, splitDims κ numOutputs n [] (.sym x) = some l ∧ l.length = n ∧
      ∀ i < n, ∃ e, l[i]? = some e ∧ e.Ok ρ ∧ e.eval ρ = some c := by
  have hn0 : (n : Int) ≠ 0 := by omega
  have hdo : DivOk (n * c) n := divOk_of (by positivity) (by omega) hsz
  have hmod : ((n : Int) * c) % n = 0 := Int.mul_emod_right _ _
  have hdiv : ((n : Int) * c) / n = c := Int.mul_ediv_cancel_left _ hn0
  unfold splitDims
  simp only [ne_eq, not_true_eq_false, if_false, litOf]
  cases hk : κ x with
  | none =>
    refine ⟨_, rfl, by simp, fun i hi => ?_⟩
    refine ⟨_, by rw [List.getElem?_map, List.getElem?_range hi]; rfl, ?_⟩
    refine ⟨⟨trivial, trivial, _, n, by simp only [Expr.eval, hx], by simp [Expr.eval], hn0, hdo⟩, ?_⟩
    simp only [Expr.eval, lift2, Option.bind_some, hn0, if_false, hx, Option.some.injEq]
    rw [ceilQ_div (by omega), if_pos hmod, hdiv]
  | some d =>
    have hdd := hκ x d hk
    rw [hx] at hdd
    subst hdd
    simp only
    rw [if_neg (by rw [hmod]; simp)]
    refine ⟨_, rfl, by simp, fun i hi => ?_⟩
    refine ⟨_, by rw [List.getElem?_map, List.getElem?_range hi]; rfl, ?_⟩
    have hlt : ¬ (i : Int) < n * c % n := by rw [hmod]; omega
    simp only [if_neg hlt]
    refine ⟨⟨trivial, trivial, _, n, by simp only [Expr.eval, hx], by simp [Expr.eval], hn0, hdo⟩, ?_⟩
    simp only [Expr.eval, lift2, Option.bind_some, hn0, if_false, hx, Option.some.injEq]
    rw [floorQ_div (by omega), hdiv]

/-! ## Concat -/

theorem concatDims_spec {a : Nat} : ∀ (os ds : List Expr) (j : Nat), os.length = ds.length →
    (concatDims κ a j os ds).length = os.length ∧
    ∀ (i : Nat) (o d : Expr), os[i]? = some o → ds[i]? = some d →
      (concatDims κ a j os ds)[i]? = some (if j + i ≠ a ∧ (litOf κ d).isSome then d else o)
  | [], [], j, _ => by simp [concatDims]
  | [], _ :: _, _, h => by simp at h
  | _ :: _, [], _, h => by simp at h
  | o :: os, d :: ds, j, h => by
    obtain ⟨h1, h2⟩ := concatDims_spec (a := a) os ds (j + 1) (by simpa using h)
    refine ⟨by simp [concatDims, h1], ?_⟩
    intro i o' d' ho hd
    cases i with
    | zero =>
      simp at ho hd
      subst ho hd
      simp [concatDims]
    | succ i =>
      have := h2 i o' d' (by simpa using ho) (by simpa using hd)
      rw [show j + 1 + i = j + (i + 1) by omega] at this
      rw [concatDims]
      simpa using this

/-- What is kept while looping over the operands. -/
structure ConcatInv (κ : Nat → Option Int) (ρ : Nat → Int) (sh : Nat → List Nat) (r a : Nat) (out : Nat → Int)
    (seen : List Nat) (dims : List Expr) (size : Expr) (s : Int) : Prop where
  len : dims.length = r
  dim : ∀ j < r, j ≠ a → ∃ e, dims[j]? = some e ∧ e.Ok ρ ∧ e.eval ρ = some (out j) ∧
    ((∃ v ∈ seen, ∃ x, (sh v)[j]? = some x ∧ (κ x).isSome) → (litOf κ e).isSome)
  ok : size.Ok ρ
  size : size.eval ρ = some s

theorem knownEmpty_sym {s : List Nat} : knownEmpty κ (symDims s) = true ↔ ∃ x, s = [x] ∧ κ x = some 0 := by
  unfold knownEmpty symDims
  match s with
  | [] => simp
  | [x] =>
    simp only [List.map_cons, List.map_nil, litOf, List.cons.injEq, and_true, exists_eq_left']
    exact decide_eq_true_iff
  | _ :: _ :: _ => simp

theorem concatInv_step {sh : Nat → List Nat} {r a : Nat} {out : Nat → Int} {seen : List Nat}
    {dims : List Expr} {size : Expr} {s : Int} {v x : Nat}
    (hinv : ConcatInv κ ρ sh r a out seen dims size s)
    (hlen : (sh v).length = r) (hx : (sh v)[a]? = some x)
    (hout : ∀ j < r, j ≠ a → ∀ y, (sh v)[j]? = some y → ρ y = out j) :
    ConcatInv κ ρ sh r a out (v :: seen) (concatDims κ a 0 dims (symDims (sh v))) (.add size (.sym x))
      (s + ρ x) := by
  obtain ⟨h1, h2⟩ := concatDims_spec (κ := κ) (a := a) dims (symDims (sh v)) 0 (by simp [symDims, hlen, hinv.len])
  refine ⟨by rw [h1, hinv.len], ?_, ⟨hinv.ok, trivial⟩, by simp [Expr.eval, hinv.size, lift2]⟩
  intro j hj hja
  obtain ⟨e, he, heo, hev, hek⟩ := hinv.dim j hj hja
  have hy : (sh v)[j]? = some (sh v)[j] := List.getElem?_eq_getElem (by omega)
  have hd : (symDims (sh v))[j]? = some (.sym (sh v)[j]) := by simp [symDims, hy]
  have := h2 j _ _ he hd
  rw [Nat.zero_add] at this
  by_cases hk : (litOf κ (.sym (sh v)[j])).isSome
  · refine ⟨.sym (sh v)[j], by rw [this, if_pos ⟨hja, hk⟩], trivial, ?_, fun _ => hk⟩
    simp [Expr.eval, hout j hj hja _ hy]
  · refine ⟨e, by rw [this, if_neg (by simp [hk])], heo, hev, ?_⟩
    rintro ⟨w, hw, y, hwy, hyk⟩
    rcases List.mem_cons.1 hw with rfl | hw
    · rw [hy] at hwy
      simp only [Option.some.injEq] at hwy
      rw [hwy] at hk
      exact absurd hyk hk
    · exact hek ⟨w, hw, y, hwy, hyk⟩

/-- The extent of an operand along the axis; known-empty operands are left out. -/
def axisSize (κ : Nat → Option Int) (ρ : Nat → Int) (sh : Nat → List Nat) (a v : Nat) : Int :=
  if knownEmpty κ (symDims (sh v)) then 0 else ((sh v)[a]?.map ρ).getD 0

theorem concatLoop_counted {sh : Nat → List Nat} {r a first : Nat} {out : Nat → Int}
    (hκ : ∀ x n, κ x = some n → ρ x = n) (ha : a < r) : ∀ (vals seen : List Nat) (dims : List Expr) (size : Expr) (s : Int),
    (∀ v ∈ vals, knownEmpty κ (symDims (sh v)) = false → (sh v).length = r ∧
      ∀ j < r, j ≠ a → ∀ y, (sh v)[j]? = some y → ρ y = out j) →
    ConcatInv κ ρ sh r a out seen dims size s →
    ∃ res, concatLoop κ (fun v => symDims (sh v)) a first true vals dims size = some res ∧
      ConcatInv κ ρ sh r a out (vals.filter (fun v => !knownEmpty κ (symDims (sh v))) ++ seen) res.1 res.2
        (s + (vals.map (axisSize κ ρ sh a)).sum)
  | [], seen, dims, size, s, _, hinv => ⟨_, rfl, by simpa using hinv⟩
  | v :: vals, seen, dims, size, s, hv, hinv => by
    rw [concatLoop]
    simp only [Bool.not_true, Bool.false_and, Bool.false_eq_true, if_false]
    by_cases he : knownEmpty κ (symDims (sh v)) = true
    · rw [if_pos he]
      obtain ⟨res, h1, h2⟩ := concatLoop_counted hκ ha vals seen dims size s (fun w hw => hv w (by simp [hw])) hinv
      refine ⟨res, h1, ?_⟩
      simpa [he, axisSize] using h2
    · have he' : knownEmpty κ (symDims (sh v)) = false := by simpa using he
      rw [if_neg he]
      obtain ⟨hl, ho⟩ := hv v (by simp) he'
      have hx : (sh v)[a]? = some (sh v)[a] := List.getElem?_eq_getElem (by omega)
      have hx' : (symDims (sh v))[a]? = some (.sym (sh v)[a]) := by simp [symDims, hx]
      rw [hx']
      simp only [Option.bind_some]
      obtain ⟨res, h1, h2⟩ := concatLoop_counted hκ ha vals (v :: seen) _ _ _ (fun w hw => hv w (by simp [hw]))
        (concatInv_step hinv hl hx ho)
      refine ⟨res, h1, ?_⟩
      have e1 : axisSize κ ρ sh a v = ρ (sh v)[a] := by simp [axisSize, he', hx]
      rw [List.map_cons, List.sum_cons, e1, ← Int.add_assoc]
      rw [List.filter_cons_of_pos (by simp [he'])]
      have hmem : ∀ w, w ∈ vals.filter (fun v => !knownEmpty κ (symDims (sh v))) ++ v :: seen ↔
          w ∈ (v :: vals.filter (fun v => !knownEmpty κ (symDims (sh v)))) ++ seen := by
        intro w; simp only [List.mem_append, List.mem_cons]; tauto
      refine ⟨h2.len, ?_, h2.ok, h2.size⟩
      intro j hj hja
      obtain ⟨e, q1, q2, q3, q4⟩ := h2.dim j hj hja
      refine ⟨e, q1, q2, q3, ?_⟩
      rintro ⟨w, hw, hww⟩
      exact q4 ⟨w, (hmem w).2 hw, hww⟩

theorem concatLoop_first {sh : Nat → List Nat} {r a first : Nat} {out : Nat → Int}
    (hκ : ∀ x n, κ x = some n → ρ x = n) (ha : a < r) : ∀ (vals : List Nat) (dims : List Expr) (size : Expr) (s : Int),
    (∀ v ∈ vals, knownEmpty κ (symDims (sh v)) = false → (sh v).length = r ∧
      ∀ j < r, j ≠ a → ∀ y, (sh v)[j]? = some y → ρ y = out j) →
    vals.find? (fun v => !knownEmpty κ (symDims (sh v))) = some first →
    s = axisSize κ ρ sh a first →
    ConcatInv κ ρ sh r a out [first] dims size s →
    ∃ res, concatLoop κ (fun v => symDims (sh v)) a first false vals dims size = some res ∧
      ConcatInv κ ρ sh r a out (vals.filter (fun v => !knownEmpty κ (symDims (sh v)))) res.1 res.2
        ((vals.map (axisSize κ ρ sh a)).sum)
  | [], dims, size, s, _, hf, _, hinv => by simp at hf
  | v :: vals, dims, size, s, hv, hf, hs, hinv => by
    rw [concatLoop]
    by_cases he : knownEmpty κ (symDims (sh v)) = true
    · rw [List.find?_cons_of_neg (by simp [he])] at hf
      have hne : (v == first) = false := by
        have := List.find?_some hf
        simp only [beq_eq_false_iff_ne]
        rintro rfl
        simp [he] at this
      simp only [Bool.not_false, Bool.true_and, hne, Bool.false_eq_true, if_false]
      rw [if_pos he]
      obtain ⟨res, h1, h2⟩ := concatLoop_first hκ ha vals dims size s (fun w hw => hv w (by simp [hw])) hf hs hinv
      refine ⟨res, h1, ?_⟩
      simpa [he, axisSize] using h2
    · have he' : knownEmpty κ (symDims (sh v)) = false := by simpa using he
      rw [List.find?_cons_of_pos (by simp [he'])] at hf
      simp only [Option.some.injEq] at hf
      subst hf
      simp only [Bool.not_false, Bool.true_and, beq_self_eq_true, if_true]
      obtain ⟨res, h1, h2⟩ := concatLoop_counted hκ ha vals [v] dims size s (fun w hw => hv w (by simp [hw])) hinv
      refine ⟨res, h1, ?_⟩
      rw [List.filter_cons_of_pos (by simp [he']), List.map_cons, List.sum_cons, ← hs]
      refine ⟨h2.len, ?_, h2.ok, h2.size⟩
      intro j hj hja
      obtain ⟨e, q1, q2, q3, q4⟩ := h2.dim j hj hja
      refine ⟨e, q1, q2, q3, ?_⟩
      rintro ⟨w, hw, hww⟩
      refine q4 ⟨w, ?_, hww⟩
      simp only [List.mem_append, List.mem_cons] at hw ⊢
      tauto

/-! ## Squeeze, Unsqueeze -/

theorem isAxis_toNat {a : Int} {rank : Nat} (h : -(rank : Int) ≤ a ∧ a < rank) :
    ∃ b : Int, isAxisInRange a rank false = some b ∧ 0 ≤ b ∧ b < rank ∧ b = if a < 0 then a + rank else a := by
  unfold isAxisInRange
  simp only [Bool.false_eq_true, if_false]
  rw [if_neg (by omega)]
  refine ⟨_, rfl, ?_, ?_, rfl⟩ <;> split <;> omega

/-- The position an axis stands for. -/
def axisPos (rank : Nat) (a : Int) : Nat := (if a < 0 then a + rank else a).toNat

theorem sqAxes_some {rank : Nat} {u : Bool} : ∀ (l : List Int) (acc : List Nat),
    (∀ a ∈ l, -(rank : Int) ≤ a ∧ a < rank) → (u = true → (acc ++ l.map (axisPos rank)).Nodup) →
    sqAxes rank u (l.map some) acc = some (acc ++ l.map (axisPos rank))
  | [], acc, _, _ => by simp [sqAxes]
  | a :: l, acc, h, hn => by
    obtain ⟨b, h1, h2, h3, h4⟩ := isAxis_toNat (h a (by simp))
    have hb : b.toNat = axisPos rank a := by rw [h4]; rfl
    rw [List.map_cons, sqAxes, h1]
    simp only [Option.bind_some, hb]
    rw [if_neg (by
      simp only [Bool.and_eq_true, List.contains_iff_mem, not_and]
      intro hu hmem
      have := hn hu
      rw [List.nodup_append] at this
      exact this.2.2 _ hmem _ (by simp) rfl)]
    rw [sqAxes_some l (acc ++ [axisPos rank a]) (fun x hx => h x (by simp [hx])) (fun hu => by
      have := hn hu
      simpa using this)]
    simp

theorem sqAxes_spec {rank : Nat} {u : Bool} : ∀ (l : List (Option Int)) (acc r : List Nat),
    sqAxes rank u l acc = some r → ∃ l' : List Int, l = l'.map some ∧ (∀ a ∈ l', -(rank : Int) ≤ a ∧ a < rank) ∧
      r = acc ++ l'.map (axisPos rank) ∧ (u = true → acc.Nodup → r.Nodup)
  | [], acc, r, h => by
    simp [sqAxes] at h
    subst h
    exact ⟨[], rfl, by simp, by simp, fun _ h => h⟩
  | none :: l, acc, r, h => by simp [sqAxes] at h
  | some a :: l, acc, r, h => by
    rw [sqAxes] at h
    by_cases hr : -(rank : Int) ≤ a ∧ a < rank
    · obtain ⟨b, h1, h2, h3, h4⟩ := isAxis_toNat hr
      have hb : b.toNat = axisPos rank a := by rw [h4]; rfl
      rw [h1] at h
      simp only [Option.bind_some, hb] at h
      split at h
      · simp at h
      · rename_i hu
        obtain ⟨l', q1, q2, q3, q4⟩ := sqAxes_spec l _ r h
        refine ⟨a :: l', by simp [q1], ?_, by simp [q3], ?_⟩
        · intro x hx
          rcases List.mem_cons.1 hx with rfl | hx
          · exact hr
          · exact q2 x hx
        · intro hut hacc
          apply q4 hut
          rw [List.nodup_append]
          refine ⟨hacc, by simp, ?_⟩
          intro x hx y hy
          simp at hy
          subst hy
          rintro rfl
          simp [hut] at hu
          exact hu hx
    · exfalso
      have : isAxisInRange a rank false = none := by
        unfold isAxisInRange
        simp only [Bool.false_eq_true, if_false]
        rw [if_pos (by omega)]
      rw [this] at h
      simp at h

theorem keepDims_all {axes : List Nat} : ∀ (l : List Expr) (i : Nat), (∀ a ∈ axes, a < i) → keepDims axes i l = l
  | [], _, _ => rfl
  | d :: l, i, h => by
    rw [keepDims, if_neg (fun hc => by have := h i hc; omega),
      keepDims_all l (i + 1) (fun a ha => by have := h a ha; omega)]

theorem insertOnes_succ {axes : List Nat} (n i : Nat) (l : List Expr) : insertOnes axes (n + 1) i l =
    if i ∈ axes then (insertOnes axes n (i + 1) l).map fun r => .lit 1 :: r
    else match l with
      | [] => none
      | d :: l => (insertOnes axes n (i + 1) l).map fun r => d :: r := by
  rw [insertOnes.eq_def]
  rfl

theorem keep_insert {axes : List Nat} : ∀ (n i : Nat) (l r : List Expr), (∀ a ∈ axes, a < i + n) →
    insertOnes axes n i l = some r → keepDims axes i r = l
  | 0, i, l, r, h, hr => by
    simp [insertOnes] at hr
    subst hr
    exact keepDims_all l i (by simpa using h)
  | n + 1, i, l, r, h, hr => by
    rw [insertOnes_succ] at hr
    split at hr
    · rename_i hi
      cases hq : insertOnes axes n (i + 1) l with
      | none => rw [hq] at hr; simp at hr
      | some q =>
        rw [hq] at hr
        simp at hr
        subst hr
        rw [keepDims, if_pos hi]
        exact keep_insert n (i + 1) l q (fun a ha => by have := h a ha; omega) hq
    · rename_i hi
      match l with
      | [] => simp at hr
      | d :: l =>
        simp only at hr
        cases hq : insertOnes axes n (i + 1) l with
        | none => rw [hq] at hr; simp at hr
        | some q =>
          rw [hq] at hr
          simp at hr
          subst hr
          rw [keepDims, if_neg hi, keep_insert n (i + 1) l q (fun a ha => by have := h a ha; omega) hq]

theorem insertOnes_total {axes : List Nat} : ∀ (n i : Nat) (l : List Expr),
    (List.range' i n).countP (fun p => decide (p ∉ axes)) = l.length →
    ∃ r, insertOnes axes n i l = some r ∧ r.length = n ∧
      ∀ p, i ≤ p → p < i + n → p ∈ axes → r[p - i]? = some (.lit 1)
  | 0, i, l, h => by
    simp at h
    refine ⟨l, rfl, by simp [← h], fun p h1 h2 => by omega⟩
  | n + 1, i, l, h => by
    rw [List.range'_succ, List.countP_cons] at h
    rw [insertOnes_succ]
    by_cases hi : i ∈ axes
    · rw [if_pos hi]
      obtain ⟨r, h1, h2, h3⟩ := insertOnes_total n (i + 1) l (by simpa [hi] using h)
      refine ⟨.lit 1 :: r, by simp [h1], by simp [h2], ?_⟩
      intro p q1 q2 q3
      by_cases hp : p = i
      · subst hp; simp
      · have := h3 p (by omega) (by omega) q3
        rw [show p - i = (p - (i + 1)) + 1 by omega]
        simpa using this
    · rw [if_neg hi]
      simp [hi] at h
      match l with
      | [] => simp at h
      | d :: l =>
        obtain ⟨r, h1, h2, h3⟩ := insertOnes_total n (i + 1) l (by simpa using h)
        refine ⟨d :: r, by simp [h1], by simp [h2], ?_⟩
        intro p q1 q2 q3
        have hp : p ≠ i := fun hc => hi (hc ▸ q3)
        have := h3 p (by omega) (by omega) q3
        rw [show p - i = (p - (i + 1)) + 1 by omega]
        simpa using this

theorem count_notMem {axes : List Nat} {R : Nat} (hn : axes.Nodup) (hb : ∀ a ∈ axes, a < R) :
    (List.range' 0 R).countP (fun p => decide (p ∉ axes)) = R - axes.length := by
  have h1 := List.length_eq_countP_add_countP (fun p => decide (p ∈ axes)) (l := List.range' 0 R)
  have h2 : (List.range' 0 R).countP (fun p => decide (p ∈ axes)) = axes.length := by
    rw [List.countP_eq_length_filter]
    apply List.Perm.length_eq
    rw [List.perm_ext_iff_of_nodup (List.Nodup.filter _ List.nodup_range') hn]
    intro a
    simp only [List.mem_filter, List.mem_range'_1, decide_eq_true_eq]
    exact ⟨fun h => h.2, fun h => ⟨⟨by omega, by have := hb a h; omega⟩, h⟩⟩
  have h3 : (List.range' 0 R).countP (fun p => decide (p ∉ axes)) =
      (List.range' 0 R).countP (fun a => decide ¬decide (a ∈ axes) = true) := by
    apply List.countP_congr
    intro a _
    simp
  rw [h3]
  simp only [List.length_range'] at h1
  omega

theorem axisPos_lt {rank : Nat} {a : Int} (h : -(rank : Int) ≤ a ∧ a < rank) : axisPos rank a < rank := by
  unfold axisPos
  split <;> omega

/-- Putting the ones back where they were. -/
theorem insert_keep {axes : List Nat} : ∀ (l : List Expr) (i : Nat),
    ∃ r, insertOnes axes l.length i (keepDims axes i l) = some r ∧ r.length = l.length ∧
      ∀ p < l.length, r[p]? = if i + p ∈ axes then some (.lit 1) else l[p]?
  | [], i => ⟨[], rfl, rfl, by simp⟩
  | d :: l, i => by
    obtain ⟨r, h1, h2, h3⟩ := insert_keep (axes := axes) l (i + 1)
    rw [List.length_cons, insertOnes_succ, keepDims]
    by_cases hi : i ∈ axes
    · rw [if_pos hi, if_pos hi, h1]
      refine ⟨.lit 1 :: r, rfl, by simp [h2], ?_⟩
      intro p hp
      cases p with
      | zero => simp [hi]
      | succ p =>
        have := h3 p (by omega)
        rw [show i + 1 + p = i + (p + 1) by omega] at this
        simpa using this
    · rw [if_neg hi, if_neg hi]
      simp only [h1, Option.map_some]
      refine ⟨d :: r, rfl, by simp [h2], ?_⟩
      intro p hp
      cases p with
      | zero => simp [hi]
      | succ p =>
        have := h3 p (by omega)
        rw [show i + 1 + p = i + (p + 1) by omega] at this
        simpa using this

theorem keepDims_length {axes : List Nat} : ∀ (l : List Expr) (i : Nat),
    (keepDims axes i l).length = (List.range' i l.length).countP (fun p => decide (p ∉ axes))
  | [], i => by simp [keepDims]
  | d :: l, i => by
    rw [keepDims, List.length_cons, List.range'_succ, List.countP_cons, ← keepDims_length l (i + 1)]
    split
    · rename_i h; simp [h]
    · rename_i h; simp [h]

theorem onesOf_spec : ∀ (s : List Nat) (i : Nat), (∀ x ∈ s, (κ x).isSome) →
    ∃ l, onesOf κ i (symDims s) = some l ∧ ∀ p, p ∈ l ↔ i ≤ p ∧ ∃ x, s[p - i]? = some x ∧ κ x = some 1
  | [], i, _ => ⟨[], rfl, by simp⟩
  | x :: s, i, h => by
    obtain ⟨l, h1, h2⟩ := onesOf_spec s (i + 1) (fun y hy => h y (by simp [hy]))
    obtain ⟨n, hn⟩ := Option.isSome_iff_exists.1 (h x (by simp))
    have h1' : onesOf κ (i + 1) (List.map Expr.sym s) = some l := h1
    refine ⟨if n = 1 then i :: l else l, by simp [symDims, onesOf, litOf, hn, h1'], ?_⟩
    intro p
    have key : p ∈ l ↔ i + 1 ≤ p ∧ ∃ y, (x :: s)[p - i]? = some y ∧ κ y = some 1 := by
      rw [h2 p]
      constructor
      · rintro ⟨q1, y, q2, q3⟩
        refine ⟨q1, y, ?_, q3⟩
        rw [show p - i = (p - (i + 1)) + 1 by omega]
        simpa using q2
      · rintro ⟨q1, y, q2, q3⟩
        refine ⟨q1, y, ?_, q3⟩
        rw [show p - i = (p - (i + 1)) + 1 by omega] at q2
        simpa using q2
    by_cases hp : p = i
    · subst hp
      have : p ∉ l := by rw [key]; omega
      by_cases h1 : n = 1
      · simp [h1, hn]
      · simp [h1, hn, this]
    · have e : (i ≤ p ∧ ∃ y, (x :: s)[p - i]? = some y ∧ κ y = some 1) ↔
          (i + 1 ≤ p ∧ ∃ y, (x :: s)[p - i]? = some y ∧ κ y = some 1) := by
        constructor
        · rintro ⟨q, r⟩; exact ⟨by omega, r⟩
        · rintro ⟨q, r⟩; exact ⟨by omega, r⟩
      rw [e, ← key]
      split
      · simp [hp]
      · rfl

theorem keepDims_filter {axes : List Nat} : ∀ (s : List Nat) (i : Nat),
    (∀ p, i ≤ p → (p ∈ axes ↔ ∃ x, s[p - i]? = some x ∧ κ x = some 1)) →
    keepDims axes i (symDims s) = symDims (s.filter fun x => decide (κ x ≠ some 1))
  | [], i, _ => rfl
  | x :: s, i, h => by
    have h0 := h i (le_refl i)
    simp at h0
    have ih := keepDims_filter s (i + 1) (axes := axes) (fun p hp => by
      rw [h p (by omega), show p - i = (p - (i + 1)) + 1 by omega]
      simp)
    have e : symDims (x :: s) = .sym x :: symDims s := rfl
    rw [e, keepDims, ih]
    by_cases hx : κ x = some 1
    · rw [if_pos (h0.2 hx)]
      simp [hx]
    · rw [if_neg (fun hc => hx (h0.1 hc))]
      simp [hx, symDims]

end Verif.Shape
