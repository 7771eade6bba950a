import Verif.Shape.BroadcastAccess
import Verif.Shape.BroadcastCollapse
import Verif.Shape.AxisModel
import Mathlib.Tactic.IntervalCases

/-!
# Properties C34, C40, C45, C46: broadcasting and axes

`Verif/Shape/BroadcastSpec.lean` says what broadcasting is. An operand is the list of its dimensions,
each a quantity (`Nat`); `ρ` gives the run-time extents, `κ` those the compiler knows. `Computes` says
that both shape inference and generated code handle an expression correctly.
-/

namespace Verif.Props
open Verif.IndexExpr Verif.Shape

/-- **C34**. If the run-time shapes of the operands broadcast to `out`, shape inference succeeds and
both the inferred shape and the generated code give `out`.

Missing: if an extent of `out` is 0, either some operand's 0 must be known at compile time or all
unknown extents there must be 0. Otherwise the code is wrong (`C34_zero_extent_false`). -/
theorem C34_broadcast_partial (fl : ℚ → ℚ) (hfl : IsDouble fl) (simp : Aff → Option Int)
    (hs : SimpOk simp) (ρ : Nat → Int) (κ : Nat → Option Int) (hκ : ∀ x n, κ x = some n → ρ x = n)
    (ops : List (List Nat)) (out : List Int) (hb : BroadcastTo (ops.map (·.map ρ)) out)
    (hpos : ∀ d ∈ out, 0 ≤ d)
    (hz : ∀ k < out.length, extent out k = 0 →
      (∃ s ∈ ops, ∃ x, s.reverse[k]? = some x ∧ κ x = some 0) ∨
      ∀ s ∈ ops, ∀ x, s.reverse[k]? = some x → κ x = none → ρ x = 0) :
    ∃ res, bcastShape κ false (ops.map symDims) = some res ∧ res.length = out.length ∧
      ∀ k < out.length, ∃ e, res.reverse[k]? = some e ∧ Computes fl simp κ ρ e (extent out k) := by
  obtain ⟨res, h1, h2, h3⟩ := bcastShape_spec hκ hb hpos (by
    intro k hk h0
    rcases hz k hk h0 with ⟨s, hs, x, hx, hx0⟩ | h
    · exact .inl ⟨s, hs, (dimE_lit s k 0).2 (.inl ⟨x, hx, hx0⟩)⟩
    · right
      intro s hs hn
      obtain ⟨x, hx, hxn⟩ := (dimE_lit_none s k).1 hn
      have h4 := h s hs x hx hxn
      rw [dimE_eval]
      unfold extent
      rw [← List.map_reverse, List.getD_eq_getElem?_getD, List.getElem?_map, hx]
      simp [h4])
  refine ⟨res, h1, h2, fun k hk => ?_⟩
  obtain ⟨e, he, hok, hev⟩ := h3 k hk
  exact ⟨e, he, computes_of hfl hs hκ hok hev⟩

/-- The operands `3x1x4`, `5x1` and a scalar, of which only the 3 is known, broadcast to `3x5x4`. -/
example : ∃ (ρ : Nat → Int) (κ : Nat → Option Int), (∀ x n, κ x = some n → ρ x = n) ∧
    BroadcastTo ([[0, 1, 2], [3, 4], []].map (·.map ρ)) [3, 5, 4] ∧ κ 2 = none ∧ κ 0 = some 3 := by
  refine ⟨fun x => [3, 1, 4, 5, 1].getD x 0, fun x => if x = 0 then some 3 else none, ?_, ?_, rfl, rfl⟩
  · intro x n h
    simp only at h
    split at h
    · rename_i hx; subst hx; simp at h; simp [← h]
    · simp at h
  · refine ⟨by simp, ⟨_, by simp; left; rfl, by simp⟩, ?_, ?_⟩ <;> intro k hk
    · have hk : k < 3 := hk
      interval_cases k <;> simp [extent]
    · have hk : k < 3 := hk
      interval_cases k <;> simp [extent]

/-- Unidirectional broadcasting (PRelu): the shape of the first operand. -/
theorem C34_unidirectional (fl : ℚ → ℚ) (hfl : IsDouble fl) (simp : Aff → Option Int)
    (hs : SimpOk simp) (ρ : Nat → Int) (κ : Nat → Option Int) (hκ : ∀ x n, κ x = some n → ρ x = n)
    (first : List Nat) (others : List (List Nat))
    (hb : BroadcastToFirst (first.map ρ) (others.map (·.map ρ))) :
    ∃ res, bcastShape κ true ((first :: others).map symDims) = some res ∧ res.length = first.length ∧
      ∀ k < first.length, ∃ e, res.reverse[k]? = some e ∧
        Computes fl simp κ ρ e (extent (first.map ρ) k) := by
  obtain ⟨res, h1, h2, h3⟩ := bcastUni_spec hκ hb
  refine ⟨res, h1, h2, fun k hk => ?_⟩
  obtain ⟨e, he, hok, hev⟩ := h3 k hk
  exact ⟨e, he, computes_of hfl hs hκ hok hev⟩

example : BroadcastToFirst ([0, 1].map fun x => if x = 0 then (2 : Int) else 0)
    [[1].map fun x => if x = 0 then (2 : Int) else 0] := by
  refine ⟨by simp, ?_⟩
  intro k hk
  have hk : k < 2 := hk
  interval_cases k <;> simp [extent]

/-- Extents known to differ, both other than 1, are rejected at compile time. -/
theorem C34_conflict_rejected (κ : Nat → Option Int) (ops : List (List Nat)) (s t : List Nat)
    (hs : s ∈ ops) (ht : t ∈ ops) (k x y : Nat) (m n : Int) (hx : s.reverse[k]? = some x)
    (hy : t.reverse[k]? = some y) (hm : κ x = some m) (hn : κ y = some n) (hm1 : m ≠ 1) (hn1 : n ≠ 1)
    (hmn : m ≠ n) : bcastShape κ false (ops.map symDims) = none := by
  by_contra hne
  obtain ⟨res, hres⟩ := Option.ne_none_iff_exists'.1 hne
  have hge : ∀ u ∈ ops, u.length ≤ outRank (ops.map symDims) := by
    intro u hu
    exact (foldl_max_ge _ 0).2 _ (List.mem_map.2 ⟨symDims u, List.mem_map.2 ⟨u, hu, rfl⟩, by simp [symDims]⟩)
  set r := outRank (ops.map symDims) with hr
  have hk : k < r := by
    have := (List.getElem?_eq_some_iff.1 hx).1
    have := hge s hs
    simp at *
    omega
  have hent : ∀ u ∈ ops, (padTo r (symDims u))[r - 1 - k]? = some (dimE u k) := fun u hu => by
    rw [padTo_get (hge u hu) (by omega), show r - 1 - (r - 1 - k) = k by omega]
  have hls : litOf κ (dimE s k) = some m := (dimE_lit s k m).2 (.inl ⟨x, hx, hm⟩)
  have hlt : litOf κ (dimE t k) = some n := (dimE_lit t k n).2 (.inl ⟨y, hy, hn⟩)
  unfold bcastShape inputsDims at hres
  rw [← hr, List.map_map] at hres
  cases ops with
  | nil => simp at hs
  | cons s0 ss =>
    simp only [List.map_cons] at hres
    obtain ⟨c', hc', hall⟩ := bcastOps_known (κ := κ) (j := r - 1 - k) (L := [dimE s0 k]) hres
      (hent s0 (by simp)) (by
        intro e he m hm _
        simp at he
        rw [← he]; exact hm) (by
        intro d hd
        obtain ⟨u, hu, rfl⟩ := List.mem_map.1 hd
        exact ⟨_, hent u (by simp [hu])⟩)
    have hin : ∀ u ∈ s0 :: ss, ∀ m, litOf κ (dimE u k) = some m → m ≠ 1 → litOf κ c' = some m := by
      intro u hu
      rcases List.mem_cons.1 hu with rfl | hu
      · exact hall _ (.inl (by simp))
      · exact hall _ (.inr ⟨_, List.mem_map.2 ⟨u, hu, rfl⟩, hent u (by simp [hu])⟩)
    have h1 := hin s hs m hls hm1
    rw [hin t ht n hlt hn1] at h1
    simp at h1
    exact hmn h1.symm

example : bcastShape (fun x => if x = 0 then some 2 else if x = 1 then some 3 else none) false
    ([[0], [5, 1]].map symDims) = none :=
  C34_conflict_rejected _ _ [0] [5, 1] (by simp) (by simp) 0 0 1 2 3 rfl rfl rfl rfl
    (by decide) (by decide) (by decide)

/-- **C34 is false** when an unknown extent 1 meets an unknown extent 0: the output extent must be 0,
the generated code computes 1. -/
theorem C34_zero_extent_false :
    ∃ (ρ : Nat → Int) (out : List Int), BroadcastTo ([[0], [1]].map (·.map ρ)) out ∧ out = [0] ∧
      ∃ res e g, bcastShape (fun _ => none) false ([[0], [1]].map symDims) = some res ∧ res = [e] ∧
        e.gen id (fun _ => none) (fun _ => none) = some g ∧ g.eval ρ = some 1 := by
  refine ⟨fun x => if x = 0 then 0 else 1, [0], ?_, rfl, _, _, _, rfl, rfl, rfl, ?_⟩
  · refine ⟨by simp, ⟨_, by simp; left; rfl, by simp⟩, ?_, ?_⟩ <;> intro k hk
    · have hk : k < 1 := hk
      interval_cases k <;> simp [extent]
    · have hk : k < 1 := hk
      interval_cases k; simp [extent]
  · simp [IE.max, allLits, IE.lit?, toAffs, IE.toAff, IE.eval, Val.eval, Aff.eval, affEvals, greatest]

/-- **C45**. In iteration `loop` of the loop nest over the output, the access generated for operand `i`
reads the element that broadcasting prescribes: index 0 where the operand has extent 1, the loop index
elsewhere; it lies inside the operand. This holds when broadcasting is not ruled out, and when it is
ruled out by `hasNoBroadcast` with dimension analysis that is right. -/
theorem C45_broadcast_access (fl : ℚ → ℚ) (hfl : IsDouble fl) (simp : Aff → Option Int)
    (hs : SimpOk simp) (ρ : Nat → Int) (κ : Nat → Option Int) (hκ : ∀ x n, κ x = some n → ρ x = n)
    (ops : List (List Nat)) (out : List Int) (hb : BroadcastTo (ops.map (·.map ρ)) out)
    (same : Nat → Bool) (hsame : ∀ (i : Nat) (s t : List Nat), ops[0]? = some s → ops[i]? = some t →
      same i = true → t.map ρ = s.map ρ)
    (noB : Bool) (hnoB : noB = true → hasNoBroadcast κ (ops.map symDims) same = true)
    (loop : List Nat) (hll : loop.length = out.length)
    (hrange : ∀ k < out.length, 0 ≤ extent (loop.map ρ) k ∧ extent (loop.map ρ) k < extent out k)
    (i : Nat) (s : List Nat) (hi : ops[i]? = some s) :
    ∃ acc, accessExprs κ false noB false (ops.map symDims) i s.length (symDims loop) = some acc ∧
      acc.length = s.length ∧ ∀ k < s.length, ∃ e v, acc.reverse[k]? = some e ∧
        Computes fl simp κ ρ e v ∧
        v = (if extent (s.map ρ) k = 1 then 0 else extent (loop.map ρ) k) ∧
        0 ≤ v ∧ v < extent (s.map ρ) k := by
  have hlen : s.length ≤ out.length := by
    have := hb.fits (s.map ρ) (List.mem_map.2 ⟨s, List.mem_of_getElem? hi, rfl⟩); simpa using this
  obtain ⟨acc, h1, h2, h3⟩ := accessExprs_spec (uni := false) (noB := noB) hκ hb hi hll hrange (by
    intro h k hk
    simp only [Bool.false_and, Bool.or_false] at h
    exact hasNoBroadcast_spec hκ hb hsame (hnoB h) s (List.mem_of_getElem? hi) k (by omega))
  refine ⟨acc, h1, h2, fun k hk => ?_⟩
  obtain ⟨e, he, hok, hev⟩ := h3 k hk
  refine ⟨e, _, he, computes_of hfl hs hκ hok hev, rfl, ?_⟩
  have hr := hrange k (by omega)
  rcases hb.each k (by omega) _ (List.mem_map.2 ⟨s, List.mem_of_getElem? hi, rfl⟩) with h | h
  · simp [h]
  · split <;> omega

/-- Loop indices `1, 4` over the output of the operands `1x5` and `3x1`. -/
example : ∃ ρ : Nat → Int, BroadcastTo ([[0, 1], [2, 3]].map (·.map ρ)) [3, 5] ∧
    ∀ k < 2, 0 ≤ extent ([4, 5].map ρ) k ∧ extent ([4, 5].map ρ) k < extent [3, 5] k := by
  refine ⟨fun x => [1, 5, 3, 1, 1, 4].getD x 0, ⟨by simp, ⟨_, by simp; left; rfl, by simp⟩, ?_, ?_⟩, ?_⟩ <;>
    intro k hk <;> (have hk : k < 2 := hk) <;> interval_cases k <;> simp [extent]

/-- **C46**. When the lowering collapses the `c` innermost loops, each operand has, in those
dimensions, either extent 1 throughout or exactly the extents of the output; so flattened operands are
either read at one position or at the position written. The two sizes it reports multiply to the number
of iterations collapsed. -/
theorem C46_collapse (fl : ℚ → ℚ) (hfl : IsDouble fl) (simp : Aff → Option Int)
    (hs : SimpOk simp) (ρ : Nat → Int) (κ : Nat → Option Int) (hκ : ∀ x n, κ x = some n → ρ x = n)
    (ops : List (List Nat)) (out : List Int) (hb : BroadcastTo (ops.map (·.map ρ)) out)
    (sameDim : Nat → Nat → Nat → Bool)
    (hsame : ∀ (k i j : Nat) (t u : List Nat), ops[i]? = some t → ops[j]? = some u →
      sameDim k i j = true → extent (t.map ρ) k = extent (u.map ρ) k) :
    ∃ c, (manageable κ sameDim (ops.map symDims)).loops = c ∧ c ≤ out.length ∧
      (∀ s ∈ ops, (∀ k < c, extent (s.map ρ) k = 1) ∨ ∀ k < c, extent (s.map ρ) k = extent out k) ∧
      ∃ v, Computes fl simp κ ρ (manageable κ sameDim (ops.map symDims)).dynamicSize v ∧
        (manageable κ sameDim (ops.map symDims)).literalSize * v =
          ((List.range c).map fun k => extent out k).prod := by
  obtain ⟨c, hc, hinv⟩ := manageable_spec hκ hb hsame
  obtain ⟨v, hv, hv2⟩ := hinv.size
  refine ⟨c, hinv.loops, hc, ?_, v, computes_of hfl hs hκ hinv.ok hv, hv2⟩
  intro s hs
  obtain ⟨i, hi⟩ := List.mem_iff_getElem?.1 hs
  have hlt : i < (manageable κ sameDim (ops.map symDims)).hasBroadcast.length := by
    rw [hinv.bcastLen]; exact (List.getElem?_eq_some_iff.1 hi).1
  have hg := List.getElem?_eq_getElem hlt
  cases hbv : (manageable κ sameDim (ops.map symDims)).hasBroadcast[i] with
  | true =>
    left
    intro k hk
    have := litOf_eval hκ (hinv.one i s hi (by rw [hg, hbv]) k hk)
    rw [dimE_eval] at this
    simpa using this
  | false => right; exact hinv.full i s hi (by rw [hg, hbv])

/-- `2x4x8`, `4x8` and `1x1`: two loops are collapsed. -/
example : (manageable (fun x => [some 2, some 4, some 8, some 4, some 8, some 1, some 1].getD x none)
    (fun _ _ _ => false) ([[0, 1, 2], [3, 4], [5, 6]].map symDims)).loops = 2 := by decide +kernel

/-- All inner loops are collapsed when the shapes are known and identical. -/
example : (manageable (fun x => [some 2, some 4, some 2, some 4].getD x none)
    (fun _ _ _ => false) ([[0, 1], [2, 3]].map symDims)).loops = 2 := by decide +kernel

/-- **C40**. With assertions compiled in, an axis is accepted exactly if it lies in `[-rank, rank)` (in
`[-rank, rank]` if the rank is allowed), and the result is the same axis counted from the front. -/
theorem C40_axis (axis rank : Int) (includeRank : Bool) (a : Int) :
    isAxisInRange axis rank includeRank = some a ↔
      (-rank ≤ axis ∧ (axis < rank ∨ (includeRank = true ∧ axis = rank))) ∧
      ((0 ≤ axis ∧ a = axis) ∨ (axis < 0 ∧ a = rank + axis)) := by
  unfold isAxisInRange
  cases includeRank <;> simp only [Bool.false_eq_true, if_false, if_true, false_and, or_false, true_and] <;>
    split <;> (try split) <;> simp <;> omega

theorem C40_get_partial (axis rank : Int) (includeRank : Bool) :
    getAxisInRange true axis rank includeRank = isAxisInRange axis rank includeRank := rfl

example : isAxisInRange (-2) 5 false = some 3 := by decide

/-- **C40 is false** for `getAxisInRange` in builds without assertions: axis -1 of a 3-dimensional
tensor stays -1, and axis 7 is accepted. -/
theorem C40_release_false :
    getAxisInRange false (-1) 3 false = some (-1) ∧ getAxisInRange false 7 3 false = some 7 := ⟨rfl, rfl⟩

end Verif.Props
