import Verif.Fusion.Sound

/-!
# C107: fusing element-wise operations into one loop nest does not change what a block computes
-/

namespace Verif.Props
open Verif.Fusion

/-- **C107** (partial: fused operations are not Mean, and Sum, Max, Min have two operands; scale and
zero point are numbers; an argument whose last extent is 1 is known to have it; the constants used are
before the first operation once they have been moved). A block whose operations all compute a value
still does after an element-wise operation has been lowered together with the operations fused with it,
and every value that is left is the same tensor as before. -/
theorem C107_fusion_partial {α : Type} (sem : Sem α) (ctx : Ctx) (env0 env : Env α)
    (blk blk' : List (Item α)) (root : Elt) (hwf : WF ctx env0 blk)
    (hrun : run sem ctx env0 blk = some env) (hty : Typed ctx env) (hsame : DimSound ctx env)
    (hroot : Item.elt root ∈ blk) (hf : fuse ctx blk root = some blk')
    (hs : ∀ u ∈ chain ctx blk blk.length root.id, Simple ctx env u)
    (hrs : ∀ ts, root.ops.mapM env = some ts → scalarsOf root.kind ts)
    (hc : ∀ m, hoistAll ctx root.id (chain ctx blk blk.length root.id) blk = some m →
      ∀ u ∈ chain ctx blk blk.length root.id, ∀ v ∈ u.ops, isConst blk v = true →
        v ∈ before root.id m) :
    ∃ env', run sem ctx env0 blk' = some env' ∧
      ∀ v, v ∉ erased root.id (chain ctx blk blk.length root.id) → env' v = env v := by
  obtain ⟨m, hm, rfl⟩ := Option.map_eq_some_iff.1 hf
  exact fuse_sound hwf hrun hty hsame hroot (chain_linked ctx blk blk.length root.id) hm rfl hs hrs
    (hc m hm)

/-- Fusion looks at the uses: nothing but the operation it is fused with uses a value that is no longer
computed. -/
theorem C107_erased_unused {α : Type} (ctx : Ctx) (blk : List (Item α)) (root : Elt)
    (hn : (blk.map Item.id).Nodup) (v : Nat)
    (hv : v ∈ erased root.id (chain ctx blk blk.length root.id)) (x : Item α) (hx : x ∈ blk)
    (hvx : v ∈ x.ops) : ∃ u ∈ chain ctx blk blk.length root.id, x = .elt u := by
  obtain ⟨u, hu, hf⟩ := erased_next (chain_linked ctx blk blk.length root.id) hv
  obtain ⟨h1, h2, h3, -⟩ := fusible_facts hf
  refine ⟨u, hu, ?_⟩
  by_cases h : x.id = (Item.elt (α := α) u).id
  · exact eq_of_id hn hx h2 h
  · have := two_uses hx h2 h hvx h3
    omega

namespace FusionEx

/-- Operations on numbers: the unary ones add 1, the others add, and so on. -/
def sem : Sem Int where
  un _ x := x + 1
  bin _ x y := x - y
  add := (· + ·)
  max := Max.max
  min := Min.min
  over x n := x / n
  deq x s z := (x - z) * s

/-- A vector. -/
def vec (l : List Int) : Tensor Int := ⟨[l.length], fun idx => l[idx.getD 0 0]?⟩

/-- A matrix of two columns. -/
def mat (l : List Int) : Tensor Int := ⟨[l.length / 2, 2], fun idx => l[2 * idx.getD 0 0 + idx.getD 1 0]?⟩

/-- Values below 10 are arguments; all are vectors of two numbers. -/
def ctx : Ctx where
  isArg v := decide (v < 10)
  outerConst _ := false
  ty _ := [some 2]
  same := none

/-- The arguments. -/
def args (l : List (Tensor Int)) : Env Int := fun v => l[v]?

/-- An element of a value after a run. -/
def elem (r : Option (Env Int)) (v : Nat) (idx : List Nat) : Option Int :=
  r.bind fun e => (e v).bind fun t => t.data idx

/-- The block before and after fusion with operation `root`. -/
def both (ctx : Ctx) (env0 : Env Int) (blk : List (Item Int)) (root : Elt) (v : Nat) (idx : List Nat) :
    Option Int × Option Int :=
  (elem (run sem ctx env0 blk) v idx,
    elem ((fuse ctx blk root).bind fun b => run sem ctx env0 b) v idx)

end FusionEx

open FusionEx

/-- **C107 fails** for Mean: a fused Mean is a sum, since the division by the number of operands is not
part of the code for one element. Here the mean of 3 and 5. -/
theorem C107_mean_false :
    both ctx (args [vec [2, 2], vec [5, 5]])
      [.elt ⟨10, .unary 0, [0]⟩, .elt ⟨11, .mean, [10, 1]⟩] ⟨10, .unary 0, [0]⟩ 11 [0] =
      (some 4, some 8) := by decide +kernel

/-- **C107 fails** for Max (and Min) of three operands: the third one is ignored. Here the maximum of
3, 5 and 9. -/
theorem C107_max_false :
    both ctx (args [vec [2, 2], vec [5, 5], vec [9, 9]])
      [.elt ⟨10, .unary 0, [0]⟩, .elt ⟨11, .max, [10, 1, 2]⟩] ⟨10, .unary 0, [0]⟩ 11 [0] =
      (some 9, some 5) := by decide +kernel

/-- **C107 fails** for Sum of three operands, and for Max of one: there is no code for these numbers of
operands. -/
theorem C107_sum_false :
    both ctx (args [vec [2, 2], vec [5, 5], vec [9, 9]])
      [.elt ⟨10, .unary 0, [0]⟩, .elt ⟨11, .sum, [10, 1, 2]⟩] ⟨10, .unary 0, [0]⟩ 11 [0] =
      (some 17, none) ∧
    both ctx (args [vec [2, 2]])
      [.elt ⟨10, .unary 0, [0]⟩, .elt ⟨11, .max, [10]⟩] ⟨10, .unary 0, [0]⟩ 11 [0] =
      (some 3, none) := by decide +kernel

/-- **C107 fails** for an argument whose last extent is not known and is 1 when the model runs: the
fused loop reads after its end instead of repeating its one element. -/
theorem C107_bounds_false :
    both { ctx with ty := fun v => if v = 1 then [none] else [some 2] } (args [vec [2, 2], vec [1]])
      [.elt ⟨10, .unary 0, [0]⟩, .elt ⟨11, .instr 0, [10, 1]⟩] ⟨10, .unary 0, [0]⟩ 11 [1] =
      (some 2, none) := by decide +kernel

/-- **C107 fails** for a constant that comes after the first operation and is used by the third: it is
not moved, or not far enough, and the loop nest uses it before it is defined. -/
theorem C107_constant_false :
    both ctx (args [vec [2, 2]])
      [.elt ⟨10, .unary 0, [0]⟩, .const 20 (vec [1, 1]), .elt ⟨11, .unary 0, [10]⟩,
        .elt ⟨12, .instr 0, [11, 20]⟩] ⟨10, .unary 0, [0]⟩ 12 [0] = (some 3, none) ∧
    both ctx (args [vec [2, 2]])
      [.elt ⟨10, .unary 0, [0]⟩, .elt ⟨11, .unary 0, [10]⟩, .const 20 (vec [1, 1]),
        .elt ⟨12, .instr 0, [11, 20]⟩] ⟨10, .unary 0, [0]⟩ 12 [0] = (some 3, none) := by
  decide +kernel

/-- **C107 fails** for a constant of an enclosing block: asking which of two operations of different
blocks comes first is an assertion failure. -/
theorem C107_outer_constant_false :
    let c : Ctx := { ctx with isArg := fun v => v == 0, outerConst := fun v => v == 1 }
    let blk : List (Item Int) := [.elt ⟨10, .unary 0, [0]⟩, .elt ⟨11, .instr 0, [10, 1]⟩]
    elem (run sem c (args [vec [2, 2], vec [1, 1]]) blk) 11 [0] = some 2 ∧
      (fuse c blk ⟨10, .unary 0, [0]⟩).isNone = true := by decide +kernel

/-- **C107 fails** for DequantizeLinear with a scale for every row: the fused code takes it for a scale
for every column. Element (0, 1) should be scaled by 1 and is scaled by 10. -/
theorem C107_dequantize_false :
    both { ctx with ty := fun v => if v = 1 ∨ v = 2 then [some 2] else [some 2, some 2] }
      (args [mat [4, 4, 4, 4], vec [1, 10], vec [0, 0]])
      [.elt ⟨10, .unary 0, [0]⟩, .elt ⟨11, .deq 0, [10, 1, 2]⟩] ⟨10, .unary 0, [0]⟩ 11 [0, 1] =
      (some 5, some 50) := by decide +kernel

namespace FusionEx

/-- Three operations, a constant after the first, and an operation that uses the result. -/
def blk : List (Item Int) :=
  [.elt ⟨10, .unary 0, [0]⟩, .const 20 (vec [1, 4]), .elt ⟨11, .instr 0, [10, 20]⟩,
    .elt ⟨12, .max, [1, 11]⟩, .other 13 [12] fun ts => ts.head?]

def root : Elt := ⟨10, .unary 0, [0]⟩

end FusionEx

/-- The case of the comment: the constant is moved, both operations are fused, and the values are right. -/
example :
    (fuse ctx blk root).map (·.map Item.id) = some [20, 12, 13] ∧
    both ctx (args [vec [2, 9], vec [3, 1]]) blk root 13 [0] = (some 3, some 3) ∧
    both ctx (args [vec [2, 9], vec [3, 1]]) blk root 13 [1] = (some 6, some 6) := by decide +kernel

/-- The hypotheses of `C107_fusion_partial` hold there. -/
example : ∃ env blk', run sem ctx (args [vec [2, 9], vec [3, 1]]) blk = some env ∧
    WF ctx (args [vec [2, 9], vec [3, 1]]) blk ∧ Typed ctx env ∧ DimSound ctx env ∧
    fuse ctx blk root = some blk' ∧
    (∀ u ∈ chain ctx blk blk.length root.id, Simple ctx env u) ∧
    (∀ m, hoistAll ctx root.id (chain ctx blk blk.length root.id) blk = some m →
      ∀ u ∈ chain ctx blk blk.length root.id, ∀ v ∈ u.ops, isConst blk v = true →
        v ∈ before root.id m) := by
  have hch : chain ctx blk blk.length root.id = [⟨11, .instr 0, [10, 20]⟩, ⟨12, .max, [1, 11]⟩] := rfl
  have hshape : ∀ (v : Nat) (t : Tensor Int),
      (args [vec [2, 9], vec [3, 1]]) v = some t → t.shape = [2] := by
    intro v t h
    match v with
    | 0 => cases h; rfl
    | 1 => cases h; rfl
    | _ + 2 => simp [args] at h
  have htyped : ∀ env : Env Int, (∀ v t, env v = some t → t.shape = [2]) → Typed ctx env := by
    intro env h v t ht
    rw [h v t ht]
    refine ⟨rfl, ?_⟩
    intro r n hr
    match r with
    | 0 =>
      have : some (some 2) = some (some n) := hr
      cases this; rfl
    | _ + 1 => simp [ctx] at hr
  have hupd : ∀ (e : Env Int) (i : Nat) (t : Tensor Int), (∀ v t, e v = some t → t.shape = [2]) →
      t.shape = [2] → ∀ v t', Function.update e i (some t) v = some t' → t'.shape = [2] := by
    intro e i t h1 h2 v t' h
    by_cases hv : v = i
    · rw [hv] at h; simp at h; rw [← h]; exact h2
    · rw [Function.update_of_ne hv] at h; exact h1 v t' h
  refine ⟨_, _, rfl, ⟨by decide, ?_, ?_, ?_⟩, htyped _ ?_, ?_, rfl, ?_, ?_⟩
  · intro x hx
    simp only [blk, List.mem_cons, List.not_mem_nil, or_false] at hx
    rcases hx with rfl | rfl | rfl | rfl | rfl <;> rfl
  · intro v hv
    have hv : v < 10 := by simpa [ctx] using hv
    have : blk.map Item.id = [10, 20, 11, 12, 13] := rfl
    rw [this]; simp; omega
  · intro v _; rfl
  · apply hupd _ _ _ _ rfl
    apply hupd _ _ _ _ rfl
    apply hupd _ _ _ _ rfl
    apply hupd _ _ _ _ rfl
    apply hupd _ _ _ hshape rfl
  · intro s h; exact absurd h (by simp [ctx])
  · rw [hch]
    intro u hu
    rcases List.mem_cons.1 hu with rfl | hu
    · refine ⟨rfl, fun _ _ _ h => ?_, fun v hv h t ht hl => ?_⟩
      · exact absurd h (by simp)
      · have hv' : v = 10 ∨ v = 20 := by simpa using hv
        rcases hv' with rfl | rfl <;> exact absurd h (by decide)
    · rw [List.mem_singleton.1 hu]
      refine ⟨rfl, fun _ _ _ h => ?_, fun v hv h t ht hl => ?_⟩
      · exact absurd h (by simp)
      · have hv' : v = 1 ∨ v = 11 := by simpa using hv
        rcases hv' with rfl | rfl
        · have : t = vec [3, 1] := by cases ht; rfl
          rw [this] at hl; exact absurd hl (by decide)
        · exact absurd h (by decide)
  · intro m hm u hu v hv hcv
    have hm' : m = [.const 20 (vec [1, 4]), .elt ⟨10, .unary 0, [0]⟩, .elt ⟨11, .instr 0, [10, 20]⟩,
        .elt ⟨12, .max, [1, 11]⟩, .other 13 [12] fun ts => ts.head?] := (Option.some.inj hm).symm
    rw [hm']
    have : v = 20 := by
      rw [hch] at hu
      rcases List.mem_cons.1 hu with rfl | hu
      · have hv' : v = 10 ∨ v = 20 := by simpa using hv
        rcases hv' with rfl | rfl
        · exact absurd hcv (by decide)
        · rfl
      · rw [List.mem_singleton.1 hu] at hv
        have hv' : v = 1 ∨ v = 11 := by simpa using hv
        rcases hv' with rfl | rfl <;> exact absurd hcv (by decide)
    rw [this]
    decide

end Verif.Props
