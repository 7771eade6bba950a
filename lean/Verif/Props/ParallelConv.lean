import Verif.Recompose.CombineSound
import Verif.Rewrite.CheckIn

/-!
# C97: convolutions of the same input are combined

Specification: `Graph`, `Graph.eval`, `Graph.WF`, `Dep` and `TypesFit` (`Verif/Recompose/GraphSpec.lean`), with the
operators of `Verif/Rewrite`. `uses` are the lists of users that MLIR keeps, in any order.
-/

namespace Verif.Props

open Verif.Rewrite
open Verif.Recompose

variable {V : Type} [Inhabited V] {A : Alg V}

/-- When convolutions are combined, the new operations can be put in an order in which operands come before their
users, no sorting is needed in the form with Concat, and the function returns the same, for any number of
convolutions, any attributes, with and without bias, any element arithmetic. Partial: one group
(`C97_group_false`), the common input is not the weights or the bias of a convolution (`C97_role_false`,
`C97_twice_false`), and a Concat that is the only user of all convolutions takes them, and nothing else, in the
order of the uses (`C97_order_false`, `C97_operands_false`). -/
theorem C97_same_partial {args : List ℕ} {uses : ℕ → List (Option ℕ)} {ty : ℕ → Option (List ℕ)} {fresh : ℕ}
    {g g' : Graph V} {root : ℕ} {c1 : ConvOp} {sorted : Bool} {env : ℕ → Tensor V} {o : List (Tensor V)}
    (wf : g.WF args) (huses : ∀ v, (uses v).Perm (usesOf g v))
    (hfresh : ∀ n, n ∈ args ∨ n ∈ g.nodes.map Prod.fst → n < fresh)
    (hceil : ∀ n c, (n, GOp.conv c) ∈ g.nodes → c.at_.ceil = false)
    (hroot : (root, GOp.conv c1) ∈ g.nodes) (htypes : TypesFit A env args g ty)
    (h : combine uses ty fresh g root = .ok g' sorted)
    (hgroup : c1.at_.group = 1)
    (honly : ∀ n c, (n, GOp.conv c) ∈ g.nodes → c1.x ≠ c.w ∧ c.b ≠ some c1.x)
    (hcat : ∀ k l, (k, GOp.concat 1 l) ∈ g.nodes → (∀ c, some c ∈ uses c1.x → ∀ u ∈ uses c, u = some k) →
      l.map some = uses c1.x)
    (he : g.eval A env = some o) :
    (∃ l, l.Perm g'.nodes ∧ Ordered args l) ∧ (sorted = false → Ordered args g'.nodes) ∧
    ∀ l, l.Perm g'.nodes → Ordered args l → Graph.eval A env ⟨l, g'.outs⟩ = some o :=
  have hc : convOf g root = some c1 := (convOf_iff (ordered_iff.1 wf.1).1).2 hroot
  combine_sound hc h ⟨wf, huses, hfresh, hceil, hroot, honly, (combine_ok hc h).1⟩ hgroup htypes hcat he

/-- The pattern does not abort. Partial: the common input is not the weights or the bias of a convolution
(`C97_twice_false`). -/
theorem C97_no_crash_partial {args : List ℕ} {uses : ℕ → List (Option ℕ)} {ty : ℕ → Option (List ℕ)} {fresh : ℕ}
    {g : Graph V} {root : ℕ} {c1 : ConvOp} (wf : g.WF args) (huses : ∀ v, (uses v).Perm (usesOf g v))
    (hfresh : ∀ n, n ∈ args ∨ n ∈ g.nodes.map Prod.fst → n < fresh)
    (hceil : ∀ n c, (n, GOp.conv c) ∈ g.nodes → c.at_.ceil = false)
    (hroot : (root, GOp.conv c1) ∈ g.nodes)
    (honly : ∀ n c, (n, GOp.conv c) ∈ g.nodes → c1.x ≠ c.w ∧ c.b ≠ some c1.x) :
    combine uses ty fresh g root ≠ .crash := by
  have hc : convOf g root = some c1 := (convOf_iff (ordered_iff.1 wf.1).1).2 hroot
  intro h
  unfold combine at h
  rw [hc] at h
  dsimp only at h
  split at h
  · rename_i hm
    rw [if_pos (Found.distinct (fresh := fresh) (root := root) ⟨wf, huses, hfresh, hceil, hroot, honly, hm⟩)] at h
    split at h <;> cases h
  · cases h

omit [Inhabited V] in
/-- The search for convolutions that depend on each other ends within its number of steps and is exact: it finds one
of the convolutions exactly when one depends on the given one. -/
theorem C97_search {args : List ℕ} {uses : ℕ → List (Option ℕ)} {g : Graph V} {cs : List ℕ} {c : ℕ} (wf : g.WF args)
    (huses : ∀ v, (uses v).Perm (usesOf g v)) (hc : c ∈ cs) (hcs : ∀ c ∈ cs, c ∈ g.nodes.map Prod.fst) :
    (reachable g uses cs c = some true ↔ ∃ c' ∈ cs, Dep g c c') ∧
    (reachable g uses cs c = some false ↔ ¬ ∃ c' ∈ cs, Dep g c c') := by
  rcases reachable_spec wf.1 huses hc hcs with ⟨h1, h2⟩ | ⟨h1, h2⟩
  · rw [h1]
    exact ⟨⟨fun _ => h2, fun _ => rfl⟩, ⟨fun h => (by cases h), fun h => absurd h2 h⟩⟩
  · rw [h1]
    have h3 : ¬ ∃ c' ∈ cs, Dep g c c' := fun ⟨c', h, hd⟩ => h2 c' h hd
    exact ⟨⟨fun h => (by cases h), fun h => absurd h h3⟩, ⟨fun _ => h3, fun _ => rfl⟩⟩

/-! ### Examples -/

/-- Attributes of a convolution with kernels of two by one elements. -/
def exPc (group : ℕ) : WinAttrs := ⟨"NOTSET", false, none, group, none, some [0, 0, 0, 0], some [1, 1]⟩

/-- Two convolutions of value 0 with biases; the first is used by an operation that comes before the second. -/
def exSplit : Graph ℚ :=
  ⟨[(5, .conv ⟨exPc 1, 0, 1, some 3⟩), (6, .other [5] fun l => l.head?), (7, .conv ⟨exPc 1, 0, 2, some 4⟩),
    (8, .concat 1 [7, 5])], [6, 8]⟩

/-- The values of the arguments. -/
def exPcEnv : ℕ → Tensor ℚ
  | 0 => qiota [1, 2, 2, 2]
  | 1 => qiota [2, 2, 2, 1]
  | 2 => (qiota [2, 2, 2, 1]).map fun v => v * v
  | 3 => qiota [2]
  | _ => (qiota [2]).map fun v => -v

/-- The static shapes. -/
def exPcTy : ℕ → Option (List ℕ)
  | 0 => some [1, 2, 2, 2]
  | 1 => some [2, 2, 2, 1]
  | 2 => some [2, 2, 2, 1]
  | 5 => some [1, 2, 1, 2]
  | 7 => some [1, 2, 1, 2]
  | _ => none

/-- The lists of users as MLIR keeps them: the last use comes first. -/
def lastFirst (g : Graph ℚ) (v : ℕ) : List (Option ℕ) := (usesOf g v).reverse

theorem lastFirst_perm (g : Graph ℚ) (v : ℕ) : (lastFirst g v).Perm (usesOf g v) := List.reverse_perm _

/-- Whether the pattern leaves a function, sorted or not. -/
def okWith (r : Res ℚ) (sorted : Bool) : Bool :=
  match r with
  | .ok _ s => s = sorted
  | _ => false

/-- What the function that the pattern leaves returns, if it needs no sorting. -/
def okEval (env : ℕ → Tensor ℚ) : Res ℚ → Option (List (Tensor ℚ))
  | .ok g _ => g.eval qAlg env
  | _ => none

/-- The hypotheses of `C97_same_partial` with Split. -/
example : exSplit.WF [0, 1, 2, 3, 4] ∧ TypesFit qAlg exPcEnv [0, 1, 2, 3, 4] exSplit exPcTy ∧
    okWith (combine (lastFirst exSplit) exPcTy 9 exSplit 5) true = true ∧
    (exSplit.eval qAlg exPcEnv).isSome = true ∧
    (∀ n, n ∈ [0, 1, 2, 3, 4] ∨ n ∈ exSplit.nodes.map Prod.fst → n < 9) ∧
    (∀ k l, (k, GOp.concat 1 l) ∈ exSplit.nodes → (∀ c, some c ∈ lastFirst exSplit 0 → ∀ u ∈ lastFirst exSplit c,
      u = some k) → l.map some = lastFirst exSplit 0) ∧
    (∀ n c, (n, GOp.conv c) ∈ exSplit.nodes → c.at_.ceil = false ∧ 0 ≠ c.w ∧ c.b ≠ some 0) := by
  refine ⟨by decide +kernel, typesFit_of (by decide +kernel), by decide +kernel, by decide +kernel, ?_, ?_, ?_⟩
  · rintro n (h | h)
    · revert n; decide +kernel
    · revert n; decide +kernel
  · intro k l hk _
    simp only [exSplit, List.mem_cons, Prod.mk.injEq, reduceCtorEq, and_false, GOp.concat.injEq, List.not_mem_nil,
      or_false, false_or] at hk
    obtain ⟨-, -, rfl⟩ := hk
    decide +kernel
  · intro n c hc
    simp only [exSplit, List.mem_cons, Prod.mk.injEq, reduceCtorEq, and_false, GOp.conv.injEq, List.not_mem_nil,
      or_false, false_or] at hc
    rcases hc with ⟨-, rfl⟩ | ⟨-, rfl⟩ <;> simp [exPc]

/-- Two convolutions whose only user is a Concat, in the order of the uses. -/
def exConcat (l : List ℕ) (group : ℕ) : Graph ℚ :=
  ⟨[(5, .conv ⟨exPc group, 0, 1, none⟩), (7, .conv ⟨exPc group, 0, 2, none⟩), (8, .concat 1 l)], [8]⟩

/-- The form with Concat. -/
example : (exConcat [7, 5] 1).WF [0, 1, 2, 3, 4] ∧ TypesFit qAlg exPcEnv [0, 1, 2, 3, 4] (exConcat [7, 5] 1) exPcTy ∧
    okWith (combine (lastFirst (exConcat [7, 5] 1)) exPcTy 9 (exConcat [7, 5] 1) 5) false = true ∧
    ((exConcat [7, 5] 1).eval qAlg exPcEnv).isSome = true ∧
    okEval exPcEnv (combine (lastFirst (exConcat [7, 5] 1)) exPcTy 9 (exConcat [7, 5] 1) 5) =
      (exConcat [7, 5] 1).eval qAlg exPcEnv :=
  ⟨by decide +kernel, typesFit_of (by decide +kernel), by decide +kernel, by decide +kernel, by decide +kernel⟩

/-- Convolutions that depend on each other: the second uses a value made of the first as its weights. -/
def exChain : Graph ℚ :=
  ⟨[(5, .conv ⟨exPc 1, 0, 1, none⟩), (6, .other [5] fun _ => some (qiota [2, 2, 2, 1])), (7, .conv ⟨exPc 1, 0, 6, none⟩)],
    [7]⟩

example : exChain.WF [0, 1] ∧ reachable exChain (lastFirst exChain) [5, 7] 5 = some true ∧
    reachable exChain (lastFirst exChain) [5, 7] 7 = some false ∧ Dep exChain 5 7 := by
  refine ⟨by decide +kernel, by decide +kernel, by decide +kernel, ?_⟩
  have h1 : Dep exChain 5 6 := Dep.base (p := (6, .other [5] fun _ => some (qiota [2, 2, 2, 1]))) (by simp [exChain])
    (by simp [GOp.args])
  exact Dep.step (p := (7, .conv ⟨exPc 1, 0, 6, none⟩)) h1 (by simp [exChain]) (by simp [GOp.args])

/-- A pattern application that changes what a well-formed, well-typed function returns. -/
def Changes (args : List ℕ) (g : Graph ℚ) (ty : ℕ → Option (List ℕ)) (env : ℕ → Tensor ℚ) (root : ℕ) : Prop :=
  g.WF args ∧ TypesFit qAlg env args g ty ∧ ∃ g' sorted o, combine (lastFirst g) ty 20 g root = .ok g' sorted ∧
    g'.WF args ∧ g.eval qAlg env = some o ∧ g'.eval qAlg env ≠ some o

/-- A way to check that. -/
def changesCheck (args : List ℕ) (g : Graph ℚ) (ty : ℕ → Option (List ℕ)) (env : ℕ → Tensor ℚ) (root : ℕ) : Bool :=
  (g.eval qAlg env).isSome &&
  match combine (lastFirst g) ty 20 g root with
  | .ok g' _ => decide (g'.WF args) && decide (g'.eval qAlg env ≠ g.eval qAlg env)
  | _ => false

theorem changes_of {args : List ℕ} {g : Graph ℚ} {ty : ℕ → Option (List ℕ)} {env : ℕ → Tensor ℚ} {root : ℕ}
    (h1 : g.WF args) (h2 : TypesFit qAlg env args g ty) (h3 : changesCheck args g ty env root = true) :
    Changes args g ty env root := by
  unfold changesCheck at h3
  rw [Bool.and_eq_true] at h3
  obtain ⟨h3, h4⟩ := h3
  obtain ⟨o, ho⟩ := Option.isSome_iff_exists.1 h3
  split at h4
  · rename_i g' s hg
    rw [Bool.and_eq_true, decide_eq_true_eq, decide_eq_true_eq, ho] at h4
    exact ⟨h1, h2, g', s, o, hg, h4.1, ho, h4.2⟩
  · cases h4

/-- A Concat with the convolutions in the order in which they stand in the program: the channels are exchanged,
because MLIR's list of users begins with the last one. -/
theorem C97_order_false : Changes [0, 1, 2, 3, 4] (exConcat [5, 7] 1) exPcTy exPcEnv 5 :=
  changes_of (by decide +kernel) (typesFit_of (by decide +kernel)) (by decide +kernel)

/-- A Concat with a further operand, which is lost. -/
theorem C97_operands_false : Changes [0, 1, 2, 3, 4] (exConcat [7, 5, 4] 1) exPcTy
    (fun n => if n = 4 then qiota [1, 3, 1, 2] else exPcEnv n) 5 :=
  changes_of (by decide +kernel) (typesFit_of (by decide +kernel)) (by decide +kernel)

/-- Two groups: a channel of the combined convolution sees the input channels of another group. -/
theorem C97_group_false : Changes [0, 1, 2, 3, 4] (exConcat [7, 5] 2)
    (fun n => if n = 1 ∨ n = 2 then some [2, 1, 2, 1] else exPcTy n)
    (fun n => if n = 1 then qiota [2, 1, 2, 1] else if n = 2 then (qiota [2, 1, 2, 1]).map fun v => v * v
      else exPcEnv n) 5 :=
  changes_of (by decide +kernel) (typesFit_of (by decide +kernel)) (by decide +kernel)

/-- The second convolution uses the input of the first as its weights. -/
def exRole : Graph ℚ := ⟨[(5, .conv ⟨exPc 1, 0, 1, none⟩), (7, .conv ⟨exPc 1, 2, 0, none⟩)], [5, 7]⟩

/-- A convolution with the common value as its weights is taken for one with the common input. -/
theorem C97_role_false : Changes [0, 1, 2] exRole
    (fun n => if n ≤ 2 then some [2, 2, 2, 1] else some [2, 2, 1, 1])
    (fun n => if n = 2 then (qiota [2, 2, 2, 1]).map fun v => v * v else qiota [2, 2, 2, 1]) 5 :=
  changes_of (by decide +kernel) (typesFit_of (by decide +kernel)) (by decide +kernel)

/-- A convolution of a value with itself. -/
def exTwice : Graph ℚ := ⟨[(5, .conv ⟨exPc 1, 0, 0, none⟩)], [5]⟩

/-- A convolution whose input is also its weights is two candidates, and is erased twice. -/
theorem C97_twice_false : exTwice.WF [0] ∧
    TypesFit qAlg (fun _ => qiota [2, 2, 2, 1]) [0] exTwice
      (fun n => if n = 0 then some [2, 2, 2, 1] else some [2, 2, 1, 1]) ∧
    (exTwice.eval qAlg fun _ => qiota [2, 2, 2, 1]).isSome = true ∧
    combine (lastFirst exTwice) (fun n => if n = 0 then some [2, 2, 2, 1] else some [2, 2, 1, 1]) 9 exTwice 5 =
      .crash := by
  refine ⟨by decide +kernel, typesFit_of (by decide +kernel), by decide +kernel, ?_⟩
  have : ∀ r : Res ℚ, (match r with | .crash => true | _ => false) = true → r = .crash := by
    intro r h
    cases r with
    | crash => rfl
    | fail => cases h
    | ok => cases h
  exact this _ (by decide +kernel)

end Verif.Props
