import Verif.Rewrite.Onnx

/-! # Element types and element operations -/

namespace Verif.Rewrite

/-- Kinds of element types. -/
inductive Kind
  | bool | sint | uint | float
deriving DecidableEq, Repr

/-- An element type. -/
structure DT where
  kind : Kind
  bits : ℕ
deriving DecidableEq, Repr

def i64 : DT := ⟨.sint, 64⟩
def f32 : DT := ⟨.float, 32⟩

/-- Element-wise operators with two operands. -/
inductive Bin
  | add | sub | mul | div | pow | equal | less | greater | and | or | xor | max | min
deriving DecidableEq, Repr

/-- The element operations of a machine; the rewrite theorems assume about them only what they say. -/
structure Alg (V : Type) where
  un : String → List ℚ → V → V
  bin : Bin → V → V → V
  cast : DT → V → V
  ofInt : ℤ → V
  /-- the element nearest to a floating-point attribute -/
  ofRat : ℚ → V
  toInt : V → ℤ
  truth : V → Bool
  toInt_ofInt : ∀ n, toInt (ofInt n) = n

end Verif.Rewrite
