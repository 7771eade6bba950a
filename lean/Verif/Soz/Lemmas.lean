import Verif.Soz.Model
import Mathlib.Tactic
/-!
# Tensors with rows of ones and zeros: lemmas (C130)
-/
namespace Verif.Soz

theorem fill_ok : ∀ (n p : Nat) (buf : List Nat), p + n ≤ buf.length →
    ∃ out, fillOnes buf p n = some out ∧ out.length = buf.length ∧
      ∀ i : Nat, out[i]? = if p ≤ i ∧ i < p + n then some 1 else buf[i]? := by
  intro n
  induction n with
  | zero => intro p buf _; exact ⟨buf, rfl, rfl, fun i => by rw [if_neg (by omega)]⟩
  | succ n ih =>
    intro p buf h
    obtain ⟨out, h1, h2, h3⟩ := ih (p + 1) (buf.set p 1) (by rw [List.length_set]; omega)
    refine ⟨out, by rw [fillOnes, if_pos (by omega)]; exact h1, by rw [h2, List.length_set], ?_⟩
    intro i
    rw [h3 i, List.getElem?_set]
    by_cases hp : p = i
    · subst hp
      rw [if_neg (by omega), if_pos rfl, if_pos (by omega), if_pos (by omega)]
    · rw [if_neg hp]
      by_cases hi : p ≤ i ∧ i < p + (n + 1)
      · rw [if_pos hi, if_pos (by omega)]
      · rw [if_neg hi, if_neg (by omega)]

theorem rowLoop_ok (inner : Nat) (n : Nat → Nat) (hn : ∀ r, n r ≤ inner) :
    ∀ (left row : Nat) (buf : List Nat), (row + left) * inner ≤ buf.length →
    ∃ out, rowLoop inner n left row buf = some out ∧ out.length = buf.length ∧
      ∀ r j : Nat, j < inner →
        out[r * inner + j]? =
          if row ≤ r ∧ r < row + left ∧ j < n r then some 1 else buf[r * inner + j]? := by
  intro left
  induction left with
  | zero =>
    intro row buf _
    exact ⟨buf, rfl, rfl, fun r j _ => by rw [if_neg (by omega)]⟩
  | succ left ih =>
    intro row buf h
    have hr := hn row
    have hm : (row + (left + 1)) * inner = row * inner + inner + left * inner := by ring
    obtain ⟨b, hb1, hb2, hb3⟩ := fill_ok (n row) (row * inner) buf (by
      have := Nat.zero_le (left * inner)
      omega)
    obtain ⟨out, h1, h2, h3⟩ := ih (row + 1) b (by
      have : (row + 1 + left) * inner = (row + (left + 1)) * inner := by ring
      omega)
    refine ⟨out, by rw [rowLoop, hb1]; exact h1, by omega, ?_⟩
    intro r j hj
    rw [h3 r j hj, hb3]
    have key : (row * inner ≤ r * inner + j ∧ r * inner + j < row * inner + n row) ↔
        r = row ∧ j < n row := by
      constructor
      · rintro ⟨ha, hb⟩
        have hrr : r = row := by
          rcases Nat.lt_trichotomy r row with hlt | heq | hgt
          · have := Nat.mul_le_mul_right inner (show r + 1 ≤ row from hlt)
            rw [Nat.add_mul] at this
            omega
          · exact heq
          · have := Nat.mul_le_mul_right inner (show row + 1 ≤ r from hgt)
            rw [Nat.add_mul] at this
            omega
        subst hrr
        exact ⟨rfl, by omega⟩
      · rintro ⟨rfl, hb⟩
        omega
    by_cases hc : row ≤ r ∧ r < row + (left + 1) ∧ j < n r
    · rw [if_pos hc]
      by_cases hr0 : r = row
      · rw [if_neg (by omega), if_pos (key.2 ⟨hr0, by rw [← hr0]; exact hc.2.2⟩)]
      · rw [if_pos (by omega)]
    · rw [if_neg hc, if_neg (by omega)]
      rw [if_neg]
      rw [key]
      rintro ⟨rfl, hj'⟩
      exact hc ⟨le_refl _, by omega, hj'⟩

theorem rows_eq (shape : List Nat) : rows shape = shape.dropLast.prod := by
  unfold rows
  rw [List.prod_eq_foldl]

theorem handled_of (type : Nat) (h : type ∈ numeric) : handled type = true := by
  simp only [numeric, List.mem_cons, List.not_mem_nil, or_false] at h
  rcases h with rfl | rfl | rfl | rfl | rfl | rfl | rfl | rfl | rfl | rfl | rfl <;> decide

end Verif.Soz
