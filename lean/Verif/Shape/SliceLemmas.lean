import Verif.Shape.SliceModel
import Verif.Shape.SliceSpec
import Verif.IndexExpr.Known
import Mathlib.Algebra.Order.Floor.Ring

namespace Verif.Shape
open Verif.IndexExpr

variable {ρ : Nat → Int}

theorem startPos_eval {s d : Expr} {x n : Int} (hs : s.eval ρ = some x) (hd : d.eval ρ = some n) :
    (startPos s d).eval ρ = some (fromEnd x n) := by
  unfold startPos fromEnd
  by_cases h : x < 0 <;> simp [Expr.eval, PExpr.eval, lift2, hs, hd, Cmp.holds, h]

theorem startFinal_eval {s t d : Expr} {x st n : Int} (hs : s.eval ρ = some x)
    (ht : t.eval ρ = some st) (hd : d.eval ρ = some n) (h0 : 0 ≤ n) (h1 : st < 0 → 0 < n) :
    (startFinal s t d).eval ρ = some (sliceFirst n x st) := by
  unfold startFinal sliceFirst clampTo
  have hp := startPos_eval hs hd
  generalize startPos s d = p at hp
  by_cases h : st < 0
  · have : ¬ n - 1 < 0 := by have := h1 h; omega
    simp [Expr.eval, PExpr.eval, lift2, ht, hd, hp, Cmp.holds, h, this]
  · have : ¬ n < 0 := by omega
    simp [Expr.eval, PExpr.eval, lift2, ht, hd, hp, Cmp.holds, h, this]

theorem endPos_eval {e d : Expr} {x n : Int} (he : e.eval ρ = some x) (hd : d.eval ρ = some n) :
    (endPos e d).eval ρ = some (if x ≥ 2147483647 then n else if x ≤ -2147483648 then -1
      else fromEnd x n) := by
  unfold endPos fromEnd
  by_cases h1 : x ≥ 2147483647 <;> by_cases h2 : x ≤ -2147483648 <;> by_cases h3 : x < 0 <;>
    simp [Expr.eval, PExpr.eval, lift2, he, hd, Cmp.holds, h1, h2, h3]

/-- What the code takes for the end. -/
def codeStop (n e st : Int) : Int :=
  if st < 0 then clampTo (-1) n (fromEnd e n) else clampTo 0 n (fromEnd e n)

theorem endFinal_eval {e t d : Expr} {x st n : Int} (he : e.eval ρ = some x)
    (ht : t.eval ρ = some st) (hd : d.eval ρ = some n) (h0 : 0 ≤ n) (h31 : n < 2 ^ 31) :
    (endFinal e t d).eval ρ = some (codeStop n x st) := by
  unfold endFinal
  have hp := endPos_eval he hd
  generalize endPos e d = p at hp
  have : ¬ n < 0 := by omega
  have : ¬ n < -1 := by omega
  have key : (if st < 0 then max (-1) (min (if x ≥ 2147483647 then n else if x ≤ -2147483648 then -1
      else fromEnd x n) n) else max 0 (min (if x ≥ 2147483647 then n else if x ≤ -2147483648 then -1
      else fromEnd x n) n)) = codeStop n x st := by
    unfold codeStop clampTo fromEnd
    split <;> split
    all_goals try split
    all_goals try split
    all_goals omega
  rw [← key]
  by_cases h : st < 0
  · simp [Expr.eval, PExpr.eval, lift2, ht, hd, hp, Cmp.holds, h, *]
  · simp [Expr.eval, PExpr.eval, lift2, ht, hd, hp, Cmp.holds, h, *]

theorem dimOut_eval {s e t d : Expr} {x y st n : Int} (hs : s.eval ρ = some x) (he : e.eval ρ = some y)
    (ht : t.eval ρ = some st) (hd : d.eval ρ = some n) (h0 : 0 ≤ n) (h1 : st < 0 → 0 < n)
    (h31 : n < 2 ^ 31) (hst : st ≠ 0) :
    (dimOut s e t d).eval ρ = some (max 0 (ceilQ (codeStop n y st - sliceFirst n x st) st)) := by
  unfold dimOut
  have h2 := startFinal_eval hs ht hd h0 h1
  have h3 := endFinal_eval he ht hd h0 h31
  generalize startFinal s t d = p at h2
  generalize endFinal e t d = q at h3
  generalize hc : ceilQ (codeStop n y st - sliceFirst n x st) st = c
  by_cases h : c < 0
  · simp [Expr.eval, PExpr.eval, lift2, ht, h2, h3, Cmp.holds, hst, hc, h]; omega
  · simp [Expr.eval, PExpr.eval, lift2, ht, h2, h3, Cmp.holds, hst, hc, h]; omega

theorem sliceFirst_range {n x st : Int} (h0 : 0 ≤ n) (h1 : st < 0 → 0 < n) :
    0 ≤ sliceFirst n x st ∧ sliceFirst n x st ≤ n ∧ (st < 0 → sliceFirst n x st < n) := by
  unfold sliceFirst clampTo
  refine ⟨?_, ?_, ?_⟩
  · split <;> omega
  · split <;> omega
  · intro h; rw [if_pos h]; have := h1 h; omega

theorem codeStop_range {n y st : Int} (h0 : 0 ≤ n) :
    -1 ≤ codeStop n y st ∧ codeStop n y st ≤ n ∧ (¬ st < 0 → 0 ≤ codeStop n y st) := by
  unfold codeStop clampTo
  refine ⟨?_, ?_, ?_⟩
  · split <;> omega
  · split <;> omega
  · intro h; rw [if_neg h]; omega

/-- The number of elements the code computes is the number of positions of the slice. -/
theorem count_spec {n x y st : Int} (h0 : 0 ≤ n) (h1 : st < 0 → 0 < n) (hst : st ≠ 0) (k : Nat) :
    (k : Int) < max 0 (ceilQ (codeStop n y st - sliceFirst n x st) st) ↔ SliceHas n x y st k := by
  have hk : (k : Int) < max 0 (ceilQ (codeStop n y st - sliceFirst n x st) st) ↔
      (k : Int) < ceilQ (codeStop n y st - sliceFirst n x st) st := by
    constructor <;> intro h <;> omega
  rw [hk]
  unfold ceilQ
  rw [Int.lt_ceil]
  obtain ⟨f1, f2, f3⟩ := sliceFirst_range (x := x) h0 h1
  unfold SliceHas
  rcases lt_or_gt_of_ne hst with hneg | hpos
  · have hq : (st : ℚ) < 0 := by exact_mod_cast hneg
    rw [lt_div_iff_of_neg hq, if_pos hneg]
    have : sliceStop n y st = codeStop n y st ∨ (sliceStop n y st = n - 1 ∧ codeStop n y st = n) := by
      unfold sliceStop codeStop clampTo
      rw [if_pos hneg, if_pos hneg]; have := h1 hneg; omega
    have h3 := f3 hneg
    have hkst : (k : Int) * st ≤ 0 := Int.mul_nonpos_of_nonneg_of_nonpos (by omega) (by omega)
    have e : ((codeStop n y st - sliceFirst n x st : ℤ) : ℚ) < ((k : ℤ) : ℚ) * st ↔
        codeStop n y st - sliceFirst n x st < (k : ℤ) * st := by
      rw [← Int.cast_mul, Int.cast_lt]
    rw [e]
    rcases this with h | h
    · rw [h]; constructor <;> intro h' <;> linarith
    · constructor <;> intro h' <;> exfalso
      · have : (k : ℤ) * st ≤ 0 := Int.mul_nonpos_of_nonneg_of_nonpos (by omega) (by omega)
        omega
      · omega
  · have hq : (0 : ℚ) < st := by exact_mod_cast hpos
    have hn : ¬ st < 0 := by omega
    rw [lt_div_iff₀ hq, if_neg hn]
    have : sliceStop n y st = codeStop n y st := by
      unfold sliceStop codeStop
      rw [if_neg hn, if_neg hn]
    rw [this, ← Int.cast_mul, Int.cast_lt]
    constructor <;> intro h' <;> linarith

theorem position_range {n x y st : Int} (h0 : 0 ≤ n) (h1 : st < 0 → 0 < n) (hst : st ≠ 0) {k : Nat}
    (h : SliceHas n x y st k) :
    0 ≤ sliceFirst n x st + k * st ∧ sliceFirst n x st + k * st < n := by
  obtain ⟨f1, f2, f3⟩ := sliceFirst_range (x := x) h0 h1
  unfold SliceHas at h
  rcases lt_or_gt_of_ne hst with hneg | hpos
  · rw [if_pos hneg] at h
    have hkst : (k : Int) * st ≤ 0 := Int.mul_nonpos_of_nonneg_of_nonpos (by omega) (by omega)
    have := f3 hneg
    have : -1 ≤ sliceStop n y st := by unfold sliceStop clampTo; rw [if_pos hneg]; omega
    generalize (k : Int) * st = w at *
    omega
  · have hn : ¬ st < 0 := by omega
    rw [if_neg hn] at h
    have hkst : 0 ≤ (k : Int) * st := Int.mul_nonneg (by omega) (by omega)
    have : sliceStop n y st ≤ n := by unfold sliceStop clampTo; rw [if_neg hn]; omega
    generalize (k : Int) * st = w at *
    omega

theorem noMinMax_startFinal {s t d : Expr} (h1 : s.noMinMax = true) (h3 : d.noMinMax = true) :
    (startFinal s t d).noMinMax = true := by
  simp [startFinal, startPos, Expr.noMinMax, h1, h3]

theorem startFinal_ok {s t d : Expr} (h1 : s.Ok ρ) (h2 : t.Ok ρ) (h3 : d.Ok ρ) :
    (startFinal s t d).Ok ρ := by
  simp [startFinal, startPos, Expr.Ok, PExpr.Ok, h1, h2, h3, Expr.noMinMax]

theorem endFinal_ok {s t d : Expr} (h1 : s.Ok ρ) (h2 : t.Ok ρ) (h3 : d.Ok ρ) :
    (endFinal s t d).Ok ρ := by
  simp [endFinal, endPos, Expr.Ok, PExpr.Ok, h1, h2, h3]

theorem dimOut_ok {s e t d : Expr} {x y st n : Int} (hs : s.eval ρ = some x) (he : e.eval ρ = some y)
    (ht : t.eval ρ = some st) (hd : d.eval ρ = some n) (h0 : 0 ≤ n) (h1 : st < 0 → 0 < n)
    (h31 : n < 2 ^ 31) (hst : st ≠ 0) (hst63 : |st| ≤ 2 ^ 63)
    (o1 : s.Ok ρ) (o2 : e.Ok ρ) (o3 : t.Ok ρ) (o4 : d.Ok ρ) (m1 : s.noMinMax = true)
    (m4 : d.noMinMax = true) : (dimOut s e t d).Ok ρ := by
  have hn : ((endFinal e t d).sub (startFinal s t d)).eval ρ =
      some (codeStop n y st - sliceFirst n x st) := by
    simp [Expr.eval, lift2, startFinal_eval hs ht hd h0 h1, endFinal_eval he ht hd h0 h31]
  have hdiv : DivOk (codeStop n y st - sliceFirst n x st) st := by
    obtain ⟨f1, f2, f3⟩ := sliceFirst_range (x := x) h0 h1
    obtain ⟨g1, g2, g3⟩ := codeStop_range (y := y) (st := st) h0
    have hab : |codeStop n y st - sliceFirst n x st| ≤ 2 ^ 31 := by
      rw [abs_le]; constructor <;> omega
    unfold DivOk
    generalize |codeStop n y st - sliceFirst n x st| = u at hab ⊢
    generalize |st| = v at hst63 ⊢
    omega
  have hq : (Expr.ceilDiv (.sub (endFinal e t d) (startFinal s t d)) t).Ok ρ := by
    rw [Expr.Ok, Expr.Ok]
    exact ⟨⟨endFinal_ok o2 o3 o4, startFinal_ok o1 o3 o4, noMinMax_startFinal m1 m4⟩, o3, _, _, hn, ht,
      hst, hdiv⟩
  unfold dimOut
  simp only [Expr.Ok, PExpr.Ok]
  rw [Expr.Ok] at hq
  exact ⟨⟨hq, trivial⟩, trivial, hq⟩

/-! ## Axes -/

theorem normAxis_spec {rank : Nat} {a : Int} {n : Nat} (h : normAxis rank a = some n) :
    n < rank ∧ (n : Int) = fromEnd a rank := by
  unfold normAxis at h
  unfold fromEnd
  by_cases ha : a < 0
  · simp only [ha, if_true] at h ⊢
    split at h
    · simp only [Option.some.injEq] at h; omega
    · simp at h
  · simp only [ha, if_false] at h ⊢
    split at h
    · simp only [Option.some.injEq] at h; omega
    · simp at h

theorem normAxes_spec {rank : Nat} {l : List Int} {ns : List Nat} (h : normAxes rank l = some ns) :
    ns.length = l.length ∧ ∀ i : Nat, ∀ a : Int, l[i]? = some a → ∃ n, ns[i]? = some n ∧ n < rank ∧
      (n : Int) = fromEnd a rank := by
  induction l generalizing ns with
  | nil => simp [normAxes] at h; subst h; simp
  | cons a l ih =>
    simp only [normAxes, Option.bind_eq_some_iff, Option.map_eq_some_iff] at h
    obtain ⟨n, hn, ns', hns', rfl⟩ := h
    obtain ⟨h1, h2⟩ := ih hns'
    refine ⟨by simp [h1], ?_⟩
    intro i b hi
    cases i with
    | zero =>
      simp only [List.getElem?_cons_zero, Option.some.injEq] at hi
      subst hi
      exact ⟨n, rfl, normAxis_spec hn⟩
    | succ i => simpa using h2 i b (by simpa using hi)

theorem normAxes_total {rank : Nat} {l : List Int} (h : ∀ a ∈ l, -(rank : Int) ≤ a ∧ a < rank) :
    ∃ ns, normAxes rank l = some ns := by
  induction l with
  | nil => exact ⟨[], rfl⟩
  | cons a l ih =>
    obtain ⟨ns, hns⟩ := ih fun b hb => h b (List.mem_cons_of_mem _ hb)
    have := h a (List.mem_cons_self ..)
    have hn : ∃ n, normAxis rank a = some n := by
      unfold normAxis
      simp only
      rw [if_pos (by split <;> omega)]
      exact ⟨_, rfl⟩
    obtain ⟨n, hn⟩ := hn
    exact ⟨n :: ns, by simp [normAxes, hn, hns]⟩

/-- What `setAxis` stores. -/
def axisOf (i ii : Nat) : SliceAxis :=
  { start := startFinal (.sym (startQ i)) (.sym (stepQ i)) (.sym (dimQ ii))
    step := .sym (stepQ i)
    «end» := endFinal (.sym (endQ i)) (.sym (stepQ i)) (.sym (dimQ ii))
    out := dimOut (.sym (startQ i)) (.sym (endQ i)) (.sym (stepQ i)) (.sym (dimQ ii)) }

theorem setAxes_spec {κ : Nat → Option Int} {axs : List Nat} {i0 : Nat}
    {acc : List (Option SliceAxis)} (hnd : axs.Nodup)
    (hstep : ∀ i, i < axs.length → κ (stepQ (i0 + i)) ≠ some 0) :
    ∃ res, setAxes κ i0 axs acc = some res ∧ res.length = acc.length ∧
      (∀ i j : Nat, axs[i]? = some j → j < acc.length → res[j]? = some (some (axisOf (i0 + i) j))) ∧
      ∀ j : Nat, j ∉ axs → res[j]? = acc[j]? := by
  induction axs generalizing i0 acc with
  | nil => exact ⟨acc, rfl, rfl, by simp, by simp⟩
  | cons a axs ih =>
    have h0 := hstep 0 (by simp)
    rw [Nat.add_zero] at h0
    have hset : setAxis κ acc i0 a = some (acc.set a (some (axisOf i0 a))) := by
      unfold setAxis; rw [if_neg h0]; rfl
    obtain ⟨hna, hnd'⟩ := List.nodup_cons.1 hnd
    obtain ⟨res, hr, hl, h1, h2⟩ := ih (i0 := i0 + 1) (acc := acc.set a (some (axisOf i0 a))) hnd'
      (fun i hi => by
        have := hstep (i + 1) (by simpa using hi)
        rwa [show i0 + 1 + i = i0 + (i + 1) by omega])
    refine ⟨res, by rw [setAxes, hset]; exact hr, by rw [hl, List.length_set], ?_, ?_⟩
    · intro i j hi hj
      cases i with
      | zero =>
        simp only [List.getElem?_cons_zero, Option.some.injEq] at hi
        subst hi
        rw [h2 a hna, List.getElem?_set_self hj, Nat.add_zero]
      | succ i =>
        have := h1 i j (by simpa using hi) (by simpa using hj)
        rwa [show i0 + 1 + i = i0 + (i + 1) by omega] at this
    · intro j hj
      simp only [List.mem_cons, not_or] at hj
      rw [h2 j hj.2, List.getElem?_set_ne (by omega)]

def defaultAxis (j : Nat) : SliceAxis :=
  { start := .lit 0, step := .lit 1, «end» := .sym (dimQ j), out := .sym (dimQ j) }

theorem fillAxes_spec (l : List (Option SliceAxis)) (i : Nat) :
    (fillAxes i l).length = l.length ∧ ∀ j : Nat, ∀ o, l[j]? = some o →
      (fillAxes i l)[j]? = some (o.getD (defaultAxis (i + j))) := by
  induction l generalizing i with
  | nil => simp [fillAxes]
  | cons a l ih =>
    obtain ⟨h1, h2⟩ := ih (i + 1)
    cases a with
    | none =>
      refine ⟨by simp [fillAxes, h1], ?_⟩
      intro j o hj
      cases j with
      | zero =>
        simp only [List.getElem?_cons_zero, Option.some.injEq] at hj
        subst hj; rfl
      | succ j =>
        have := h2 j o (by simpa using hj)
        rw [show i + 1 + j = i + (j + 1) by omega] at this
        simpa [fillAxes] using this
    | some a =>
      refine ⟨by simp [fillAxes, h1], ?_⟩
      intro j o hj
      cases j with
      | zero =>
        simp only [List.getElem?_cons_zero, Option.some.injEq] at hj
        subst hj; rfl
      | succ j =>
        have := h2 j o (by simpa using hj)
        rw [show i + 1 + j = i + (j + 1) by omega] at this
        simpa [fillAxes] using this

theorem sliceShape_spec {κ : Nat → Option Int} {rank : Nat} {axes : Option (List Int)}
    {axs : List Nat}
    (haxs : sliceAxes rank axes = some axs)
    (hlt : ∀ a ∈ axs, a < rank) (hnd : axs.Nodup)
    (hstep : ∀ i, i < axs.length → κ (stepQ i) ≠ some 0) :
    ∃ res, sliceShape κ rank axes = some res ∧ res.length = rank ∧
      (∀ i j : Nat, axs[i]? = some j → res[j]? = some (axisOf i j)) ∧
      ∀ j, j < rank → j ∉ axs → res[j]? = some (defaultAxis j) := by
  obtain ⟨acc, ha, hl, h1, h2⟩ := setAxes_spec (κ := κ) (i0 := 0) (acc := List.replicate rank none) hnd
    (fun i hi => by rw [Nat.zero_add]; exact hstep i hi)
  rw [List.length_replicate] at hl
  obtain ⟨f1, f2⟩ := fillAxes_spec acc 0
  refine ⟨fillAxes 0 acc, by unfold sliceShape; rw [haxs]; simp [ha], by rw [f1, hl], ?_, ?_⟩
  · intro i j hij
    have hj := hlt j (List.mem_of_getElem? hij)
    have := f2 j _ (h1 i j hij (by simpa using hj))
    simpa using this
  · intro j hj hn
    have h3 := h2 j hn
    rw [List.getElem?_replicate, if_pos hj] at h3
    have := f2 j _ h3
    simpa using this

end Verif.Shape
