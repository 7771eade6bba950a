import Verif.IndexExpr.Sound

/-!
# What it means that an index expression is handled correctly
-/

namespace Verif.IndexExpr

/-- The code generated for `e` computes `v` at run time, and if shape inference reports a number for
`e` it is `v`. `κ` are the quantities the compiler knows, `ρ` all run-time values. -/
def Computes (fl : ℚ → ℚ) (simp : Aff → Option Int) (κ : Nat → Option Int) (ρ : Nat → Int) (e : Expr)
    (v : Int) : Prop :=
  (∃ g, e.gen fl simp κ = some g ∧ g.eval ρ = some v) ∧
  ∃ q, e.infer fl κ = some q ∧ ∀ m, q = .lit m → m = v

theorem computes_of {fl : ℚ → ℚ} (hfl : IsDouble fl) {simp : Aff → Option Int} (hs : SimpOk simp)
    {ρ : Nat → Int} {κ : Nat → Option Int} (hκ : ∀ x n, κ x = some n → ρ x = n) {e : Expr}
    (hok : e.Ok ρ) {v : Int} (he : e.eval ρ = some v) : Computes fl simp κ ρ e v := by
  obtain ⟨g, z, hg, hge, hz⟩ := gen_sound hfl hs hκ e hok
  obtain ⟨q, hq, hqe⟩ := infer_sound hfl hκ e hok
  exact ⟨⟨g, hg, by rw [hge, hz v he]⟩, q, hq, hqe v he⟩

end Verif.IndexExpr
