import Verif.Rewrite.Onnx

/-!
# RNN, GRU and LSTM in both layouts (specification)

The parts of the ONNX operators that the rewrites of `Verif/RnnRewrite/Model.lean` depend on: the layout of the inputs
and outputs, the directions and the lengths of the sequences. The equations of a step are any function `cell`; the
equations of the three operators are in `Verif/Lower/RnnSpec.lean`. Nothing here models code.
-/

namespace Verif.RnnRewrite

open Verif.Rewrite

variable {V : Type} [Inhabited V]

/-- Hidden state and cell state of one sequence. -/
abbrev State (V : Type) := List V × List V

/-- The state after `k` steps of a sequence of length `len`, read from its end in the reverse direction. -/
def stateAfter (cell : List V → State V → State V) (rev : Bool) (xs : ℕ → List V) (len : ℕ) (s0 : State V) : ℕ → State V
  | 0 => s0
  | k + 1 => cell (xs (if rev then len - 1 - k else k)) (stateAfter cell rev xs len s0 k)

/-- A recurrent operator: is each pass in reverse, the number of hidden units, the step of each pass with its weights,
and the number zero. -/
structure Recurrence (V : Type) where
  passes : List Bool
  hidden : ℕ
  cell : ℕ → List V → State V → State V
  zero : V

/-- `[first, second, ..]` in layout 0, `[second, first, ..]` in layout 1 (the batch first). -/
def swap (layout1 : Bool) (a b : ℕ) (rest : List ℕ) : List ℕ := if layout1 then b :: a :: rest else a :: b :: rest

/-- `[seq_length, num_directions, batch_size, hidden_size]` in layout 0,
`[batch_size, seq_length, num_directions, hidden_size]` in layout 1. -/
def yIndex (layout1 : Bool) (t d b j : ℕ) : List ℕ := if layout1 then [b, t, d, j] else [t, d, b, j]

/-- An optional initial state, zero when absent. -/
def initial (r : Recurrence V) (layout1 : Bool) (h0 : Option (Tensor V)) (d b : ℕ) : List V :=
  (List.range r.hidden).map fun j => match h0 with
    | none => r.zero
    | some h => h.get (swap layout1 d b [j])

/-- The lengths of the sequences: those given, or else all of them have the full length. -/
def lengthOf (S : ℕ) (lens : Option (Tensor ℕ)) (b : ℕ) : ℕ := match lens with
  | none => S
  | some l => l.get [b]

/-- The sequence of inputs of element `b` of the batch. -/
def inputs (layout1 : Bool) (X : Tensor V) (I b t : ℕ) : List V :=
  (List.range I).map fun k => X.get (swap layout1 t b [k])

/-- The state of pass `d` on element `b` of the batch after `k` steps. -/
def stateOf (r : Recurrence V) (layout1 : Bool) (S I : ℕ) (X : Tensor V) (lens : Option (Tensor ℕ))
    (h0 c0 : Option (Tensor V)) (d b k : ℕ) : State V :=
  stateAfter (r.cell d) (r.passes.getD d false) (inputs layout1 X I b) (lengthOf S lens b)
    (initial r layout1 h0 d b, initial r layout1 c0 d b) k

/-- The shapes fit. -/
def Fits (r : Recurrence V) (layout1 : Bool) (S N : ℕ) (lens : Option (Tensor ℕ)) (h0 c0 : Option (Tensor V)) : Prop :=
  (∀ l, lens = some l → l.shape = [N] ∧ ∀ b < N, l.get [b] ≤ S) ∧
    (∀ h, h0 = some h → h.shape = swap layout1 r.passes.length N [r.hidden]) ∧
    (∀ c, c0 = some c → c.shape = swap layout1 r.passes.length N [r.hidden])

/-- The three results of a recurrent operator on inputs of seq_length `S`, batch_size `N` and input_size `I`: all hidden
states (zero after the end of a sequence), the last hidden states and the last cell states. -/
def results (r : Recurrence V) (layout1 : Bool) (S N I : ℕ) (X : Tensor V) (lens : Option (Tensor ℕ))
    (h0 c0 : Option (Tensor V)) : Tensor V × Tensor V × Tensor V :=
  let D := r.passes.length
  let last := fun d b => stateOf r layout1 S I X lens h0 c0 d b (lengthOf S lens b)
  (build (yIndex layout1 S D N r.hidden) fun i =>
      let t := i.getD (if layout1 then 1 else 0) 0
      let d := i.getD (if layout1 then 2 else 1) 0
      let b := i.getD (if layout1 then 0 else 2) 0
      if t < lengthOf S lens b then
        (stateOf r layout1 S I X lens h0 c0 d b
          (if r.passes.getD d false then lengthOf S lens b - t else t + 1)).1.getD (i.getD 3 0) r.zero
      else r.zero,
    build (swap layout1 D N [r.hidden]) fun i =>
      (last (i.getD (if layout1 then 1 else 0) 0) (i.getD (if layout1 then 0 else 1) 0)).1.getD (i.getD 2 0) r.zero,
    build (swap layout1 D N [r.hidden]) fun i =>
      (last (i.getD (if layout1 then 1 else 0) 0) (i.getD (if layout1 then 0 else 1) 0)).2.getD (i.getD 2 0) r.zero)

/-- The results, `none` when the shapes do not fit. -/
noncomputable def recurrent (r : Recurrence V) (layout1 : Bool) (X : Tensor V) (lens : Option (Tensor ℕ))
    (h0 c0 : Option (Tensor V)) : Option (Tensor V × Tensor V × Tensor V) :=
  open Classical in
  match X.shape with
  | [a, b, I] =>
    let S := if layout1 then b else a
    let N := if layout1 then a else b
    if Fits r layout1 S N lens h0 c0 then some (results r layout1 S N I X lens h0 c0) else none
  | _ => none

end Verif.RnnRewrite
