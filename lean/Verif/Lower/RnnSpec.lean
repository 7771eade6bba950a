import Verif.Lower.RnnModel

/-!
Specification of the recurrent operations: the equations of the ONNX operator documentation for one
element of the batch, and the sequence of states they define.
-/

namespace Verif.Lower

section
variable {R : Type*} [CommRing R]

/-- State of one element of the batch. -/
structure Cell (R : Type*) where
  h : ℤ → R
  c : ℤ → R

/-- `Σ_k v_k * M[d, row, k]`. -/
def rowDot (v : ℤ → R) (M : Mem R) (d row n : ℤ) : R := ((upto n).map fun k => v k * M.data [d, row, k]).sum

/-- Entry of an optional vector, zero when it is absent. -/
def optAt (B : Option (Mem R)) (d j : ℤ) : R := match B with | none => 0 | some b => b.data [d, j]

/-- The weights of a recurrent operation with `hs` hidden units and `I` inputs. -/
structure RWeights (R : Type*) where
  W : Mem R
  Rw : Mem R
  B : Option (Mem R)

/-- `Xt*(W_g^T) + Ht-1*(R_g^T) + Wb_g + Rb_g` for gate `g` of `G`. -/
def gateSum (w : RWeights R) (I hs G d g : ℤ) (x h : ℤ → R) (j : ℤ) : R :=
  rowDot x w.W d (g * hs + j) I + rowDot h w.Rw d (g * hs + j) hs + optAt w.B d (g * hs + j) + optAt w.B d ((G + g) * hs + j)

/-- RNN: `Ht = f(Xt*(Wi^T) + Ht-1*(Ri^T) + Wbi + Rbi)`. -/
def rnnCell (f : R → R) (w : RWeights R) (I hs d : ℤ) (x : ℤ → R) (s : Cell R) : Cell R :=
  ⟨fun j => f (gateSum w I hs 1 d 0 x s.h j), s.c⟩

/-- LSTM, gates in the order i, o, f, c and peepholes in the order i, o, f. -/
def lstmCell (a : LstmAct R) (w : RWeights R) (P : Option (Mem R)) (I hs d : ℤ) (x : ℤ → R) (s : Cell R) : Cell R :=
  let it := fun j => a.f (gateSum w I hs 4 d 0 x s.h j + optAt P d (0 * hs + j) * s.c j)
  let ft := fun j => a.f (gateSum w I hs 4 d 2 x s.h j + optAt P d (2 * hs + j) * s.c j)
  let ct := fun j => a.g (gateSum w I hs 4 d 3 x s.h j)
  let C := fun j => ft j * s.c j + it j * ct j
  let ot := fun j => a.f (gateSum w I hs 4 d 1 x s.h j + optAt P d (1 * hs + j) * C j)
  ⟨fun j => ot j * a.h (C j), C⟩

/-- GRU, gates in the order z, r, h. -/
def gruCell (lin : Bool) (f g : R → R) (w : RWeights R) (I hs d : ℤ) (x : ℤ → R) (s : Cell R) : Cell R :=
  let zt := fun j => f (gateSum w I hs 3 d 0 x s.h j)
  let rt := fun j => f (gateSum w I hs 3 d 1 x s.h j)
  let ht := fun j => if lin then
      g (rowDot x w.W d (2 * hs + j) I + rt j * (rowDot s.h w.Rw d (2 * hs + j) hs + optAt w.B d (5 * hs + j)) + optAt w.B d (2 * hs + j))
    else
      g (rowDot x w.W d (2 * hs + j) I + rowDot (fun k => rt k * s.h k) w.Rw d (2 * hs + j) hs + optAt w.B d (5 * hs + j) + optAt w.B d (2 * hs + j))
  ⟨fun j => (1 - zt j) * ht j + zt j * s.h j, s.c⟩

/-- The state after `k` steps of a sequence of length `len`, read from its end in the reverse direction. -/
def stateAfter (cell : (ℤ → R) → Cell R → Cell R) (rev : Bool) (xs : ℤ → ℤ → R) (len : ℤ) (s0 : Cell R) : ℕ → Cell R
  | 0 => s0
  | k + 1 => cell (xs (if rev then len - 1 - k else k)) (stateAfter cell rev xs len s0 k)

/-- The passes of a direction: is each one in reverse? -/
def passes : RDir → List Bool
  | .forward => [false]
  | .reverse => [true]
  | .bidirectional => [false, true]

/-- Entry of an optional initial state, zero when it is absent. -/
def initAt (init : Option (Mem R)) (d b j : ℤ) : R := match init with | none => 0 | some m => m.data [d, b, j]

/-- What a recurrent operation must return, where `cell d` are the equations with the weights of pass `d`, `len b` is
the length of sequence `b` (the rest of it is padding), and Y is padded with the initial state. -/
structure RnnResult (o : ROut R) (dir : RDir) (X : Mem R) (S N hs : ℤ) (initH initC : Option (Mem R)) (hasY : Bool)
    (cell : ℕ → (ℤ → R) → Cell R → Cell R) (len : ℤ → ℤ) : Prop where
  /-- Y is an output when asked for. -/
  isSome : o.Y.isSome = hasY
  /-- The shapes. -/
  shapeY : ∀ y, o.Y = some y → y.shape = [S, (passes dir).length, N, hs]
  shapeYh : o.Yh.shape = [((passes dir).length : ℤ), N, hs]
  shapeYc : o.Yc.shape = [((passes dir).length : ℤ), N, hs]
  /-- The values of Y within the sequence and in the padding. -/
  valY : ∀ y, o.Y = some y → ∀ (d : ℕ) (rev : Bool), (passes dir)[d]? = some rev → ∀ t b j, 0 ≤ t → t < S → 0 ≤ b → b < N →
    0 ≤ j → j < hs →
    y.data [t, d, b, j] =
      if t < len b then
        (stateAfter (cell d) rev (fun t k => X.data [t, b, k]) (len b) ⟨initAt initH d b, initAt initC d b⟩
          (if rev then (len b - t).toNat else (t + 1).toNat)).h j
      else initAt initH d b j
  /-- The last hidden and cell states. -/
  valYh : ∀ (d : ℕ) (rev : Bool), (passes dir)[d]? = some rev → ∀ b j, 0 ≤ b → b < N → 0 ≤ j → j < hs →
    o.Yh.data [(d : ℤ), b, j] = (stateAfter (cell d) rev (fun t k => X.data [t, b, k]) (len b)
      ⟨initAt initH d b, initAt initC d b⟩ (len b).toNat).h j
  valYc : ∀ (d : ℕ) (rev : Bool), (passes dir)[d]? = some rev → ∀ b j, 0 ≤ b → b < N → 0 ≤ j → j < hs →
    o.Yc.data [(d : ℤ), b, j] = (stateAfter (cell d) rev (fun t k => X.data [t, b, k]) (len b)
      ⟨initAt initH d b, initAt initC d b⟩ (len b).toNat).c j

end

end Verif.Lower
