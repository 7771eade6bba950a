import Verif.Reuse.Lemmas

/-!
# C108: writing the result of an element-wise operation into the buffer of an operand
-/

namespace Verif.Props
open Verif.Fusion Verif.Reuse

/-- **C108** (partial: the operand that is used once shares its buffer with no other operand; this says
nothing about other values of the model in that buffer, see below). Whatever the order of the iterations,
and whether or not the buffer of an operand is reused, the buffer chosen holds the result of the operation
on the operands as they were; all other buffers are unchanged; and a buffer that is reused is that of an
operand with no other use and the shape of the result. -/
theorem C108_reuse_partial {α : Type} (sem : Sem α) (k : Kind) (hk : ∀ axis, k ≠ .deq axis)
    (xs : List Operand) (outTy : List (Option Nat)) (new : Nat) (enabled : Bool) (m : Mem α)
    (T : Tensor α) (hT : elementwise sem k (xs.map fun x => ⟨x.shape, m x.buf⟩) = some T)
    (hty : ∀ x ∈ xs, Conforms x.ty x.shape) (hout : Conforms outTy T.shape)
    (hnew : ∀ x ∈ xs, x.buf ≠ new)
    (hone : ∀ (i j : Nat) (x y : Operand), xs[i]? = some x → xs[j]? = some y → x.uses = 1 →
      x.buf = y.buf → i = j)
    (order : List (List Nat)) (hn : order.Nodup)
    (hall : ∀ idx, idx ∈ order ↔ inside T.shape idx = true) :
    (∀ idx, inside T.shape idx = true →
      loop sem k xs (allocOrReuse enabled xs outTy new) order m (allocOrReuse enabled xs outTy new) idx =
        T.data idx) ∧
    (∀ b, b ≠ allocOrReuse enabled xs outTy new →
      loop sem k xs (allocOrReuse enabled xs outTy new) order m b = m b) ∧
    (allocOrReuse enabled xs outTy new = new ∨
      ∃ x ∈ xs, allocOrReuse enabled xs outTy new = x.buf ∧ x.uses = 1 ∧ x.shape = T.shape) := by
  have hch : allocOrReuse enabled xs outTy new = new ∨
      ∃ (i : Nat) (x : Operand), xs[i]? = some x ∧ allocOrReuse enabled xs outTy new = x.buf ∧ x.uses = 1 ∧
        x.shape = T.shape := by
    unfold allocOrReuse
    cases enabled with
    | false => exact Or.inl rfl
    | true =>
      simp only [if_true]
      cases hw : whichBufferToReuse xs outTy with
      | none => exact Or.inl rfl
      | some i =>
        right
        obtain ⟨hi, hr, -⟩ := List.findIdx?_eq_some_iff_getElem.1 hw
        obtain ⟨h1, h2, h3⟩ := isBufferReusable_facts hr
        refine ⟨i, xs[i], List.getElem?_eq_getElem hi, ?_, h1, ?_⟩
        · simp [List.getElem?_eq_getElem hi]
        · have c := hty _ (List.getElem_mem hi)
          have hst : ∀ {t : List (Option Nat)} {s s' : List Nat}, t.all Option.isSome = true →
              Conforms t s → Conforms t s' → s = s' := by
            intro t s s' h h1 h2
            apply List.ext_getElem
            · rw [← h1.1, ← h2.1]
            · intro r hr hr'
              have hrt : r < t.length := by rw [h1.1]; exact hr
              have := List.all_eq_true.1 h t[r] (List.getElem_mem hrt)
              obtain ⟨n, hn⟩ := Option.isSome_iff_exists.1 this
              have he : t[r]? = some (some n) := by rw [List.getElem?_eq_getElem hrt, hn]
              have a := h1.2 r n he
              have b := h2.2 r n he
              rw [List.getD_eq_getElem _ _ hr] at a
              rw [List.getD_eq_getElem _ _ hr'] at b
              rw [a, b]
          rw [h2] at c h3
          exact hst h3 c hout
  generalize allocOrReuse enabled xs outTy new = b at hch
  have hidx : ∀ idx ∈ order, ∀ (i : Nat) (x : Operand), xs[i]? = some x → x.buf = b →
      operandIndex k x.shape idx i = idx := by
    intro idx hi i x hx hb
    have hins := (hall idx).1 hi
    have hop : operandIndex k x.shape idx i = bIndex x.shape idx := by
      cases k with
      | deq a => exact absurd rfl (hk a)
      | _ => rfl
    rcases hch with h | ⟨j, y, hy, hby, huy, hsy⟩
    · exact absurd (hb.trans h) (hnew x (List.mem_of_getElem? hx))
    · have hji := hone j i y x hy hx huy (by rw [← hby, hb])
      rw [hji, hx] at hy
      cases hy
      rw [hop, hsy, bIndex_self hins]
  obtain ⟨l1, -, l3⟩ := loop_spec (sem := sem) (k := k) (xs := xs) (out := b) order hn hidx m
  refine ⟨?_, l3, ?_⟩
  · intro idx hi
    rw [l1 idx ((hall idx).2 hi), (elementwise_eq hT).2.2, if_pos hi]
    unfold eltAt
    congr 1
    exact (mapM_zip (h := fun x : Operand => (⟨x.shape, m x.buf⟩ : Tensor α)) xs 0
      (fun _ _ _ => rfl)).symm
  · rcases hch with h | ⟨i, x, hx, h1, h2, h3⟩
    · exact Or.inl h
    · exact Or.inr ⟨x, List.mem_of_getElem? hx, h1, h2, h3⟩

namespace ReuseEx

def sem : Sem Int where
  un _ x := x + 1
  bin _ x y := x - y
  add := (· + ·)
  max := Max.max
  min := Min.min
  over x n := x / n
  deq x s z := (x - z) * s

/-- Vectors of two elements in buffers 0, 1, ... -/
def mem (l : List (List Int)) : Mem Int := fun b idx => (l[b]?).bind fun v => v[idx.getD 0 0]?

/-- An operand that is a vector of two elements. -/
def vec (origin : Origin) (uses buf : Nat) : Operand := ⟨origin, uses, [some 2], 0, [2], buf⟩

end ReuseEx

open ReuseEx

/-- Two results of operations, the second one used only here: its buffer takes the difference. -/
example :
    let xs := [vec .result 2 0, vec .result 1 1]
    allocOrReuse true xs [some 2] 9 = 1 ∧
      [[0], [1]].map (loop sem (.instr 0) xs 1 [[1], [0]] (mem [[5, 7], [1, 2]]) 1) = [some 4, some 5] ∧
      [[0], [1]].map (loop sem (.instr 0) xs 1 [[1], [0]] (mem [[5, 7], [1, 2]]) 0) = [some 5, some 7] := by
  decide +kernel

/-- **C108 fails** for arguments of the model: the data of the caller is overwritten. -/
theorem C108_argument_false :
    let x := vec .argument 1 0
    let b := allocOrReuse true [x] [some 2] 9
    x.origin = .argument ∧ b = x.buf ∧ mem [[5, 7]] x.buf [0] = some 5 ∧
      loop sem (.unary 0) [x] b [[0], [1]] (mem [[5, 7]]) x.buf [0] = some 6 := by decide +kernel

/-- **C108 fails** for constants: the constant is overwritten, and the same operation on the same data
gives another result the next time. -/
theorem C108_constant_false :
    let xs := [vec .result 2 0, vec .constant 1 1]
    let b := allocOrReuse true xs [some 2] 9
    let first := loop sem (.instr 0) xs b [[0], [1]] (mem [[5, 7], [1, 1]])
    let second := loop sem (.instr 0) xs b [[0], [1]] first
    first 0 [0] = some 5 ∧ second 0 [0] = some 5 ∧ first b [0] = some 4 ∧ second b [0] = some 1 := by
  decide +kernel

/-- **C108 fails** for views: `y` is `x` with another shape and is used once; `x`, in the same buffer,
is used again later and has changed. -/
theorem C108_view_false :
    let x := vec .result 2 0
    let y := vec .view 1 0
    let b := allocOrReuse true [y] [some 2] 9
    x.buf = y.buf ∧ mem [[5, 7]] x.buf [0] = some 5 ∧
      loop sem (.unary 0) [y] b [[0], [1]] (mem [[5, 7]]) x.buf [0] = some 6 := by decide +kernel

/-- **C108 fails** for operations that change the type of the elements: the type of the elements of the
operand is not compared with that of the result. -/
theorem C108_type_false (elemIn elemOut : Nat) (h : elemIn ≠ elemOut) :
    ∃ x : Operand, x.elem = elemIn ∧ x.elem ≠ elemOut ∧ allocOrReuse true [x] [some 2] 9 = x.buf ∧
      x.buf ≠ 9 :=
  ⟨{ vec .result 1 0 with elem := elemIn }, rfl, h, rfl, Nat.zero_ne_add_one 8⟩

end Verif.Props
