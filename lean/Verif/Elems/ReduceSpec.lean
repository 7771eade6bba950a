import Verif.Base.Index

/-!
# Specification of reductions
-/

namespace Verif.Elems

/-- Takes the entries at the positions `axes` out of a list whose first entry has position `p`, or puts
`fill` in their place. -/
def project (fill : Option Nat) (axes : List Nat) : Nat → List Nat → List Nat
  | _, [] => []
  | p, x :: xs =>
    if p ∈ axes then fill.toList ++ project fill axes (p + 1) xs
    else x :: project fill axes (p + 1) xs

end Verif.Elems
