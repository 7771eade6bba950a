import Verif.Shape.PartsLemmas

/-!
# Properties C36, C37, C38: Split, Concat, Squeeze and Unsqueeze shapes

The dimensions of a tensor are quantities: dimension `j` of a tensor with shape `s` is `ρ s[j]` at run
time and the compiler knows it if `κ s[j]` is a number. `symDims s` are these dimensions as index
expressions. `Computes fl simp κ ρ e v` says that shape inference and the generated code give `v` for
`e`. `axisPos rank a` is the position an axis stands for: `a`, or `a + rank` if `a` is negative.
-/

namespace Verif.Props
open Verif.IndexExpr Verif.Shape

/-- The dimensions `o` are those of `s`, except at position `a`, where the extent is `c`. -/
def SplitsTo (fl : ℚ → ℚ) (simp : Aff → Option Int) (κ : Nat → Option Int) (ρ : Nat → Int) (s : List Nat)
    (a : Nat) (c : Int) (o : List Expr) : Prop :=
  o.length = s.length ∧
  ∀ (j x : Nat), s[j]? = some x → ∃ e, o[j]? = some e ∧ Computes fl simp κ ρ e (if j = a then c else ρ x)

theorem splitsTo_set {fl : ℚ → ℚ} (hfl : IsDouble fl) {simp : Aff → Option Int} (hs : SimpOk simp)
    {ρ : Nat → Int} {κ : Nat → Option Int} (hκ : ∀ x n, κ x = some n → ρ x = n) {s : List Nat} {a : Nat}
    {c : Int} {e : Expr} (h : e.Ok ρ) (he : e.eval ρ = some c) :
    SplitsTo fl simp κ ρ s a c ((symDims s).set a e) := by
  refine ⟨by simp [symDims], fun j x hj => ?_⟩
  have hlt : j < s.length := (List.getElem?_eq_some_iff.1 hj).1
  by_cases hja : j = a
  · subst hja
    refine ⟨e, by rw [List.getElem?_set_self (by simpa [symDims] using hlt)], ?_⟩
    simpa using computes_of hfl hs hκ h he
  · refine ⟨.sym x, by rw [List.getElem?_set_ne (by omega)]; simp [symDims, hj], ?_⟩
    rw [if_neg hja]
    exact computes_of (e := .sym x) hfl hs hκ trivial rfl

theorem splitShape_eq {κ : Nat → Option Int} {s : List Nat} {axis : Int} {no : Bool} {n : Nat} {sizes : List Int}
    (hax : -(s.length : Int) ≤ axis ∧ axis < s.length) {x : Nat} (hx : s[axisPos s.length axis]? = some x) :
    splitShape κ no (symDims s) axis n sizes = (splitDims κ no n sizes (.sym x)).map fun sd =>
      sd.map fun e => (symDims s).set (axisPos s.length axis) e := by
  obtain ⟨b, h1, h2, h3, h4⟩ := isAxis_toNat hax
  have hb : b.toNat = axisPos s.length axis := by rw [h4]; rfl
  have hl : (symDims s).length = s.length := by simp [symDims]
  unfold splitShape
  rw [hl, h1]
  simp only [Option.bind_some, hb]
  have : (symDims s)[axisPos s.length axis]? = some (.sym x) := by simp [symDims, hx]
  rw [this]
  rfl

/-- **C36**, extents that divide evenly. Splitting an axis of extent `n * c` into `n` results without
giving sizes makes each result `c` long, whether the extent is known or not, in all versions of the
operator.

Missing: extents that do not divide evenly, see `C36_known_partial`, `C36_uneven_false` and
`C36_unknown_false`, and extents near `2^52`. -/
theorem C36_divisible_partial (fl : ℚ → ℚ) (hfl : IsDouble fl) (simp : Aff → Option Int) (hs : SimpOk simp)
    (ρ : Nat → Int) (κ : Nat → Option Int) (hκ : ∀ x n, κ x = some n → ρ x = n) (s : List Nat) (axis : Int)
    (hax : -(s.length : Int) ≤ axis ∧ axis < s.length) (no : Bool) (n : Nat) (hn : 0 < n) (c : Int)
    (hc : 0 ≤ c) (x : Nat) (hx : s[axisPos s.length axis]? = some x) (hd : ρ x = n * c)
    (hsz : n * c + n ≤ 2 ^ 52) :
    ∃ l, splitShape κ no (symDims s) axis n [] = some l ∧ l.length = n ∧
      ∀ i < n, ∃ o, l[i]? = some o ∧ SplitsTo fl simp κ ρ s (axisPos s.length axis) c o := by
  rw [splitShape_eq hax hx]
  obtain ⟨l, h1, h2, h3⟩ := splitDims_divisible (numOutputs := no) hκ hn hc hsz hd
  refine ⟨_, by rw [h1]; rfl, by simp [h2], fun i hi => ?_⟩
  obtain ⟨e, q1, q2, q3⟩ := h3 i hi
  exact ⟨_, by rw [List.getElem?_map, q1]; rfl, splitsTo_set hfl hs hκ q2 q3⟩

example : ∃ l, splitShape (fun _ => none) true (symDims [0, 1]) (-1) 3 [] = some l ∧ l.length = 3 := by
  decide +kernel

/-- **C36**, known extents. Splitting a known extent `d` into any number `n` of results without giving
sizes makes lengths that sum to `d`, do not grow, and differ by at most one.

Missing: ONNX makes all results but the last equally long (`C36_uneven_false`). -/
theorem C36_known_partial (fl : ℚ → ℚ) (hfl : IsDouble fl) (simp : Aff → Option Int) (hs : SimpOk simp)
    (ρ : Nat → Int) (κ : Nat → Option Int) (hκ : ∀ x n, κ x = some n → ρ x = n) (s : List Nat) (axis : Int)
    (hax : -(s.length : Int) ≤ axis ∧ axis < s.length) (n : Nat) (hn : 0 < n) (d : Nat)
    (x : Nat) (hx : s[axisPos s.length axis]? = some x) (hd : κ x = some (d : Int))
    (hsz : d + n ≤ 2 ^ 52) :
    ∃ (l : List (List Expr)) (c : List Nat), splitShape κ true (symDims s) axis n [] = some l ∧
      l.length = n ∧ c.length = n ∧ c.sum = d ∧ c.Pairwise (fun p q => q ≤ p ∧ p ≤ q + 1) ∧
      ∀ (i k : Nat), c[i]? = some k →
        ∃ o, l[i]? = some o ∧ SplitsTo fl simp κ ρ s (axisPos s.length axis) k o := by
  rw [splitShape_eq hax hx]
  obtain ⟨l, h1, h2, h3⟩ := splitDims_known (ρ := ρ) (n := n) hκ hn (by omega) (by omega) hd
  refine ⟨_, (List.range n).map fun i => if i < d % n then d / n + 1 else d / n, by rw [h1]; rfl,
    by simp [h2], by simp, ?_, ?_, ?_⟩
  · rw [range_sum, Nat.min_eq_right (Nat.mod_lt _ hn).le]
    exact Nat.div_add_mod d n
  · rw [List.pairwise_map]
    apply List.Pairwise.imp (R := (· < ·)) _ List.pairwise_lt_range
    intro a b hab
    split <;> split <;> omega
  · intro i k hk
    have hi : i < n := by
      have := (List.getElem?_eq_some_iff.1 hk).1
      simpa using this
    obtain ⟨e, q1, q2, q3⟩ := h3 i hi
    rw [List.getElem?_map, List.getElem?_range hi] at hk
    simp only [Option.map_some, Option.some.injEq] at hk
    refine ⟨_, by rw [List.getElem?_map, q1]; rfl, splitsTo_set hfl hs hκ q2 ?_⟩
    rw [q3, ← hk]
    congr 1
    have e1 : ((d : Int) % n) = ((d % n : Nat) : Int) := by simp
    have e2 : ((d : Int) / n) = ((d / n : Nat) : Int) := by simp
    rw [e1, e2]
    by_cases hlt : i < d % n
    · rw [if_pos hlt, if_pos (by exact_mod_cast hlt)]
      simp
    · rw [if_neg hlt, if_neg (by exact_mod_cast hlt)]

/-- Explicit sizes are used as they are, and their number has to be the number of results. -/
theorem C36_explicit (fl : ℚ → ℚ) (hfl : IsDouble fl) (simp : Aff → Option Int) (hs : SimpOk simp)
    (ρ : Nat → Int) (κ : Nat → Option Int) (hκ : ∀ x n, κ x = some n → ρ x = n) (s : List Nat) (axis : Int)
    (hax : -(s.length : Int) ≤ axis ∧ axis < s.length) (no : Bool) (n : Nat) (sizes : List Int)
    (hne : sizes ≠ []) :
    (sizes.length ≠ n → splitShape κ no (symDims s) axis n sizes = none) ∧
    (sizes.length = n → ∃ l, splitShape κ no (symDims s) axis n sizes = some l ∧ l.length = n ∧
      ∀ (i : Nat) (c : Int), sizes[i]? = some c →
        ∃ o, l[i]? = some o ∧ SplitsTo fl simp κ ρ s (axisPos s.length axis) c o) := by
  have hx : s[axisPos s.length axis]? = some (s[axisPos s.length axis]'(axisPos_lt hax)) :=
    List.getElem?_eq_getElem _
  rw [splitShape_eq hax hx]
  unfold splitDims
  rw [if_pos hne]
  constructor
  · intro h
    rw [if_pos h]
    rfl
  · intro h
    rw [if_neg (by simpa using h)]
    refine ⟨_, rfl, by simp [h], fun i c hc => ?_⟩
    exact ⟨_, by rw [List.getElem?_map, List.getElem?_map, hc]; rfl, splitsTo_set (e := .lit c) hfl hs hκ trivial rfl⟩

/-- An axis that does not exist is rejected. -/
theorem C36_axis_rejected (κ : Nat → Option Int) (s : List Nat) (axis : Int)
    (hax : ¬(-(s.length : Int) ≤ axis ∧ axis < s.length)) (no : Bool) (n : Nat) (sizes : List Int) :
    splitShape κ no (symDims s) axis n sizes = none := by
  unfold splitShape isAxisInRange
  simp only [Bool.false_eq_true, if_false, symDims, List.length_map]
  rw [if_pos (by omega)]
  rfl

/-- The older versions reject a known extent that does not divide evenly. -/
theorem C36_old_rejected (κ : Nat → Option Int) (s : List Nat) (axis : Int) (n : Nat) (d : Int)
    (x : Nat) (hx : s[axisPos s.length axis]? = some x) (hd : κ x = some d) (hnd : ¬(n : Int) ∣ d) :
    splitShape κ false (symDims s) axis n [] = none := by
  by_cases hax : -(s.length : Int) ≤ axis ∧ axis < s.length
  · rw [splitShape_eq hax hx]
    unfold splitDims
    simp only [ne_eq, not_true_eq_false, if_false, litOf, hd]
    rw [if_pos ⟨fun h => hnd (Int.dvd_of_emod_eq_zero h), trivial⟩]
    rfl
  · exact C36_axis_rejected _ _ _ hax _ _ _

/-- **C36 is false** for a known extent: ONNX splits 7 into three as 3, 3, 1 but the code infers
3, 2, 2. -/
theorem C36_uneven_false :
    (splitShape (fun _ => some 7) true (symDims [0]) 0 3 []).map (fun l => l.map fun o =>
      o.map fun e => e.eval (fun _ => 7)) = some [[some 3], [some 2], [some 2]] := by
  decide +kernel

/-- **C36 is false** for an extent not known at compile time: the three parts of an extent 7 are all 3
long, which sums to 9. -/
theorem C36_unknown_false :
    (splitShape (fun _ => none) true (symDims [0]) 0 3 []).map (fun l => l.map fun o =>
      o.map fun e => e.eval (fun _ => 7)) = some [[some 3], [some 3], [some 3]] := by
  decide +kernel

/-- **C37**. Concatenating tensors of rank `r` along an axis, where operands that are known to have the
shape `[0]` are ignored: the extents off the axis are the common ones, known if any operand's is, and
the extent on the axis is the sum.

Missing: all operands are known to be empty (`C37_all_empty_false`). -/
theorem C37_concat_partial (fl : ℚ → ℚ) (hfl : IsDouble fl) (simp : Aff → Option Int) (hs : SimpOk simp)
    (ρ : Nat → Int) (κ : Nat → Option Int) (hκ : ∀ x n, κ x = some n → ρ x = n)
    (sh : Nat → List Nat) (vals : List Nat) (axis : Int) (r : Nat)
    (hax : -(r : Int) ≤ axis ∧ axis < r) (out : Nat → Int)
    (hv : ∀ v ∈ vals, (∃ x, sh v = [x] ∧ κ x = some 0) ∨ ((sh v).length = r ∧
      ∀ j < r, j ≠ axisPos r axis → ∀ x, (sh v)[j]? = some x → ρ x = out j))
    (hne : ∃ v ∈ vals, ¬∃ x, sh v = [x] ∧ κ x = some 0)
    (size : Nat → Int)
    (hsize : ∀ v ∈ vals, ((∃ x, sh v = [x] ∧ κ x = some 0) ∧ size v = 0) ∨
      ∃ x, (sh v)[axisPos r axis]? = some x ∧ size v = ρ x) :
    ∃ o, concatShape κ (fun v => symDims (sh v)) vals axis = some o ∧ o.length = r ∧
      (∃ e, o[axisPos r axis]? = some e ∧ Computes fl simp κ ρ e (vals.map size).sum) ∧
      ∀ j < r, j ≠ axisPos r axis → ∃ e, o[j]? = some e ∧ Computes fl simp κ ρ e (out j) ∧
        ((∃ v ∈ vals, (¬∃ x, sh v = [x] ∧ κ x = some 0) ∧ ∃ x, (sh v)[j]? = some x ∧ (κ x).isSome) →
          ∃ m, e.infer fl κ = some (.lit m)) := by
  set a := axisPos r axis with ha
  have har : a < r := axisPos_lt hax
  obtain ⟨v0, hv0, hv0n⟩ := hne
  have hke : ∀ v, knownEmpty κ (symDims (sh v)) = true ↔ ∃ x, sh v = [x] ∧ κ x = some 0 :=
    fun v => knownEmpty_sym
  have hkf : ∀ v, knownEmpty κ (symDims (sh v)) = false ↔ ¬∃ x, sh v = [x] ∧ κ x = some 0 := by
    intro v
    rw [← hke v]
    simp
  have hsz : vals.map size = vals.map (axisSize κ ρ sh a) := by
    apply List.map_congr_left
    intro v hvm
    unfold axisSize
    rcases hsize v hvm with ⟨h1, h2⟩ | ⟨x, h1, h2⟩
    · rw [if_pos ((hke v).2 h1), h2]
    · split
      · rename_i he
        obtain ⟨y, hy, hy0⟩ := (hke v).1 he
        have : x = y := by
          rw [hy] at h1
          have := List.mem_of_getElem? h1
          simpa using this
        rw [h2, this]
        exact hκ y 0 hy0
      · rw [h1, h2]
        rfl
  cases hf : firstNonEmpty κ (fun v => symDims (sh v)) vals with
  | none =>
    exfalso
    unfold firstNonEmpty at hf
    rw [List.find?_eq_none] at hf
    have := hf v0 hv0
    rw [(hkf v0).2 hv0n] at this
    simp at this
  | some first =>
    have hfm : first ∈ vals := List.mem_of_find?_eq_some hf
    have hfe : knownEmpty κ (symDims (sh first)) = false := by
      have := List.find?_some hf
      simpa using this
    have hval : ∀ v ∈ vals, knownEmpty κ (symDims (sh v)) = false → (sh v).length = r ∧
        ∀ j < r, j ≠ a → ∀ y, (sh v)[j]? = some y → ρ y = out j := by
      intro v hvm he
      rcases hv v hvm with h | h
      · exact absurd h ((hkf v).1 he)
      · exact h
    obtain ⟨hfl1, hfo⟩ := hval first hfm hfe
    have hx : (sh first)[a]? = some (sh first)[a] := List.getElem?_eq_getElem (by omega)
    obtain ⟨b, h1, h2, h3, h4⟩ := isAxis_toNat hax
    have hb : b.toNat = a := by rw [h4]; rfl
    have hinv : ConcatInv κ ρ sh r a out [first] (symDims (sh first)) (.sym (sh first)[a])
        (ρ (sh first)[a]) := by
      refine ⟨by simp [symDims, hfl1], ?_, trivial, rfl⟩
      intro j hj hja
      have hy : (sh first)[j]? = some (sh first)[j] := List.getElem?_eq_getElem (by omega)
      refine ⟨.sym (sh first)[j], by simp [symDims], trivial, by simp [Expr.eval, hfo j hj hja _ hy], ?_⟩
      rintro ⟨w, hw, y, hwy, hk⟩
      simp at hw
      subst hw
      rw [hy] at hwy
      simp at hwy
      subst hwy
      exact hk
    obtain ⟨res, q1, q2⟩ := concatLoop_first (first := first) hκ har vals _ _ _ hval hf
      (by simp [axisSize, hfe, hx]) hinv
    refine ⟨res.1.set a res.2, ?_, by simp [q2.len], ?_, ?_⟩
    · unfold concatShape
      simp only [hf]
      have hl : ((symDims (sh first)).length : Int) = r := by simp [symDims, hfl1]
      rw [hl, h1]
      simp only [Option.bind_some, hb]
      have hxx : (symDims (sh first))[a]? = some (.sym (sh first)[a]) := by simp [symDims, hx]
      rw [hxx]
      simp only [Option.bind_some, q1, Option.map_some]
    · refine ⟨res.2, by rw [List.getElem?_set_self (by rw [q2.len]; exact har)], ?_⟩
      rw [hsz]
      exact computes_of hfl hs hκ q2.ok q2.size
    · intro j hj hja
      obtain ⟨e, p1, p2, p3, p4⟩ := q2.dim j hj hja
      refine ⟨e, by rw [List.getElem?_set_ne (by omega)]; exact p1, computes_of hfl hs hκ p2 p3, ?_⟩
      rintro ⟨v, hvm, hvn, x, hvx, hk⟩
      have := p4 ⟨v, by simp [hvm, (hkf v).2 hvn], x, hvx, hk⟩
      obtain ⟨m, hm⟩ := Option.isSome_iff_exists.1 this
      refine ⟨m, ?_⟩
      match e, hm with
      | .lit k, hm => simp [litOf] at hm; subst hm; rfl
      | .sym y, hm => simp [litOf] at hm; simp [Expr.infer, hm]

/-- Three operands, `?x3`, `[0]` and `2x?`, along the first axis. -/
example : (concatShape (fun x => if x = 1 then some 3 else if x = 2 then some 0 else if x = 3 then some 2 else none)
    (fun v => symDims ([[0, 1], [2], [3, 4]].getD v [])) [0, 1, 2] (-2)).map
      (fun o => o.map fun e => e.eval (fun x => [5, 3, 0, 2, 3].getD x 0)) = some [some 7, some 3] := by
  decide +kernel

/-- **C37 is false** if all operands are known to be `[0]`: concatenating two empty vectors infers a
scalar instead of `[0]`. -/
theorem C37_all_empty_false :
    concatShape (fun _ => some 0) (fun v => symDims [v]) [0, 1] 0 = some [] := by
  rfl

/-- **C38**, Unsqueeze. Ones are inserted at the requested positions of the output, which may be
negative, and squeezing these restores the original dimensions. -/
theorem C38_roundtrip (κ : Nat → Option Int) (dims : List Expr) (axes : List Int)
    (hr : ∀ a ∈ axes, -((dims.length + axes.length : Nat) : Int) ≤ a ∧
      a < (dims.length + axes.length : Nat))
    (hd : (axes.map (axisPos (dims.length + axes.length))).Nodup) :
    ∃ r, unsqueezeShape dims (axes.map some) = some r ∧ r.length = dims.length + axes.length ∧
      (∀ a ∈ axes, r[axisPos (dims.length + axes.length) a]? = some (.lit 1)) ∧
      squeezeShape κ r (some (axes.map some)) = some dims := by
  have hsq := fun u => sqAxes_some (u := u) axes [] hr (fun _ => by simpa using hd)
  simp only [List.nil_append] at hsq
  set R := dims.length + axes.length with hR
  have hlt : ∀ p ∈ axes.map (axisPos R), p < R := by
    intro p hp
    obtain ⟨a, ha, rfl⟩ := List.mem_map.1 hp
    exact axisPos_lt (hr a ha)
  obtain ⟨r, h1, h2, h3⟩ := insertOnes_total (axes := axes.map (axisPos R)) R 0 dims (by
    rw [count_notMem hd hlt]
    simp [hR])
  refine ⟨r, ?_, h2, ?_, ?_⟩
  · unfold unsqueezeShape
    simp only [List.length_map, ← hR, hsq true, Option.bind_some, h1]
  · intro a ha
    have := h3 (axisPos R a) (by omega) (by have := axisPos_lt (hr a ha); omega) (List.mem_map_of_mem ha)
    simpa using this
  · unfold squeezeShape
    simp only [h2, hsq false, Option.map_some, Option.some.injEq]
    exact keep_insert R 0 dims r (by simpa using hlt) h1

example : unsqueezeShape (symDims [0, 1]) [some (-1), some 0] =
    some [.lit 1, .sym 0, .sym 1, .lit 1] := by rfl

/-- Unsqueeze accepts exactly the axes that are known, in range and different. -/
theorem C38_unsqueeze_accepts (dims : List Expr) (axes : List (Option Int)) :
    (unsqueezeShape dims axes).isSome ↔
      ∃ l : List Int, axes = l.map some ∧
        (∀ a ∈ l, -((dims.length + axes.length : Nat) : Int) ≤ a ∧ a < (dims.length + axes.length : Nat)) ∧
        (l.map (axisPos (dims.length + axes.length))).Nodup := by
  constructor
  · intro h
    unfold unsqueezeShape at h
    simp only at h
    cases hq : sqAxes (dims.length + axes.length) true axes [] with
    | none => rw [hq] at h; simp at h
    | some r =>
      obtain ⟨l, h1, h2, h3, h4⟩ := sqAxes_spec _ _ _ hq
      refine ⟨l, h1, h2, ?_⟩
      have := h4 rfl (by simp)
      rw [h3] at this
      simpa using this
  · rintro ⟨l, rfl, h2, h3⟩
    simp only [List.length_map] at h2 h3
    obtain ⟨r, hr, -⟩ := C38_roundtrip (fun _ => none) dims l h2 h3
    rw [hr]
    rfl

/-- Squeeze accepts exactly the axes that are known and in range. Duplicates are accepted, and the
extent is not checked to be 1. -/
theorem C38_squeeze_accepts (κ : Nat → Option Int) (dims : List Expr) (axes : List (Option Int)) :
    (squeezeShape κ dims (some axes)).isSome ↔
      ∃ l : List Int, axes = l.map some ∧ ∀ a ∈ l, -(dims.length : Int) ≤ a ∧ a < dims.length := by
  unfold squeezeShape
  simp only [Option.isSome_map]
  constructor
  · intro h
    obtain ⟨r, hr⟩ := Option.isSome_iff_exists.1 h
    obtain ⟨l, h1, h2, -⟩ := sqAxes_spec _ _ _ hr
    exact ⟨l, h1, h2⟩
  · rintro ⟨l, rfl, h2⟩
    rw [sqAxes_some l [] h2 (by simp)]
    rfl

/-- Squeezing axes of extent 1 and unsqueezing them restores the extents. -/
theorem C38_squeeze_unsqueeze (κ : Nat → Option Int) (ρ : Nat → Int) (dims : List Expr) (axes : List Int)
    (hr : ∀ a ∈ axes, -(dims.length : Int) ≤ a ∧ a < dims.length)
    (hd : (axes.map (axisPos dims.length)).Nodup)
    (hone : ∀ a ∈ axes, ∀ e, dims[axisPos dims.length a]? = some e → e.eval ρ = some 1) :
    ∃ q r, squeezeShape κ dims (some (axes.map some)) = some q ∧
      q.length + axes.length = dims.length ∧
      unsqueezeShape q (axes.map some) = some r ∧
      r.map (fun e => e.eval ρ) = dims.map (fun e => e.eval ρ) := by
  have hsq := fun u => sqAxes_some (u := u) axes [] hr (fun _ => by simpa using hd)
  simp only [List.nil_append] at hsq
  set P := axes.map (axisPos dims.length) with hP
  have hlt : ∀ p ∈ P, p < dims.length := by
    intro p hp
    obtain ⟨a, ha, rfl⟩ := List.mem_map.1 hp
    exact axisPos_lt (hr a ha)
  have hlen : (keepDims P 0 dims).length + axes.length = dims.length := by
    rw [keepDims_length, count_notMem hd hlt]
    have : P.length ≤ dims.length := by
      have := List.Nodup.length_le_card (α := Fin dims.length)
        (l := P.pmap (fun a h => ⟨a, h⟩) hlt) (by
          apply hd.pmap
          intro a _ b _ h
          simpa using h)
      simpa using this
    have hPl : P.length = axes.length := by simp [hP]
    omega
  obtain ⟨r, h1, h2, h3⟩ := insert_keep (axes := P) dims 0
  refine ⟨keepDims P 0 dims, r, ?_, hlen, ?_, ?_⟩
  · unfold squeezeShape
    simp only [hsq false, Option.map_some]
  · unfold unsqueezeShape
    simp only [List.length_map, hlen, hsq true, Option.bind_some, h1]
  · apply List.ext_getElem?
    intro p
    rw [List.getElem?_map, List.getElem?_map]
    by_cases hp : p < dims.length
    · rw [h3 p hp]
      simp only [Nat.zero_add]
      split
      · rename_i hm
        obtain ⟨a, ha, rfl⟩ := List.mem_map.1 hm
        have hx : dims[axisPos dims.length a]? = some (dims[axisPos dims.length a]'hp) :=
          List.getElem?_eq_getElem _
        rw [hx]
        simp only [Option.map_some, Option.some.injEq]
        rw [hone a ha _ hx]
        rfl
      · rfl
    · rw [List.getElem?_eq_none (by omega), List.getElem?_eq_none (by omega)]

/-- If the axes are omitted and all extents are known, exactly the extents that are not 1 remain, in
order. -/
theorem C38_squeeze_omitted (κ : Nat → Option Int) (s : List Nat) (h : ∀ x ∈ s, (κ x).isSome) :
    squeezeShape κ (symDims s) none = some (symDims (s.filter fun x => decide (κ x ≠ some 1))) := by
  unfold squeezeShape
  obtain ⟨l, h1, h2⟩ := onesOf_spec s 0 h
  simp only [h1, Option.map_some, Option.some.injEq]
  apply keepDims_filter
  intro p _
  rw [h2 p]
  simp

/-- **C38**, Squeeze does not reject invalid axes: `2x3` may be squeezed on its first axis, which loses
half of the elements. -/
theorem C38_squeeze_false :
    squeezeShape (fun x => if x = 0 then some 2 else some 3) (symDims [0, 1]) (some [some 0]) =
      some (symDims [1]) := by
  rfl

end Verif.Props
