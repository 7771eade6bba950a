/-!
# The shapes of inputs that are made at run time: specification (C129)
-/
namespace Verif.InputShapes

/-- An entry of the option for shapes, `low:d0xd1x…` or `low-high:d0xd1x…`. The number -1 as `low` is
for all inputs, the number -1 as a dimension leaves it open. -/
structure Entry where
  low : Int
  high : Option Int
  dims : List Int

/-- The entry is about the input with number `i`. -/
def Entry.Covers (e : Entry) (i : Nat) : Prop :=
  e.low = -1 ∨ (e.low ≤ i ∧ i ≤ e.high.getD e.low)

instance (e : Entry) (i : Nat) : Decidable (e.Covers i) := by unfold Entry.Covers; infer_instance

/-- The dimensions that are asked for: those of the last entry about the input. -/
def asked (es : List Entry) (i : Nat) : List Int :=
  match (es.filter fun e => decide (e.Covers i)).getLast? with
  | some e => e.dims
  | none => []

/-- The entry is well-formed, for a model with `n` inputs. -/
def Entry.Valid (n : Nat) (e : Entry) : Prop :=
  (e.low = -1 ∨ (0 ≤ e.low ∧ e.low < n ∧ ∀ h, e.high = some h → e.low ≤ h ∧ h < n)) ∧
    ∀ d ∈ e.dims, -1 ≤ d

/-- The size `v` is right for a dimension that is `s` in the signature, where negative numbers are for
unknown sizes, and for which `a` is asked, if something is. -/
def DimFits (s : Int) (a : Option Int) (v : Int) : Prop :=
  0 ≤ v ∧ (0 ≤ s → v = s) ∧ ∀ x, a = some x → 0 ≤ x → v = x

/-- The shape is right for an input with the dimensions `s` in the signature. -/
def ShapeFits (s a t : List Int) : Prop :=
  t.length = s.length ∧ ∀ (k : Nat) x v, s[k]? = some x → t[k]? = some v → DimFits x a[k]? v

/-- The shapes are right for the inputs of the signature and for the option. -/
def Fits (sig : List (List Int)) (es : List Entry) (ts : List (List Int)) : Prop :=
  ts.length = sig.length ∧
    ∀ (i : Nat) s t, sig[i]? = some s → ts[i]? = some t → ShapeFits s (asked es i) t

end Verif.InputShapes
