import Verif.Zdnnx.Model
import Mathlib.Tactic.Ring
import Mathlib.Tactic.Linarith

/-! Facts about the stickified format. -/

namespace Verif.Zdnnx

theorem cdiv_pos {a b : ℕ} (ha : 0 < a) (hb : 0 < b) : 0 < cdiv a b := by
  unfold cdiv; exact Nat.div_pos (by omega) hb

theorem le_mul_cdiv {a b : ℕ} (hb : 0 < b) : a ≤ b * cdiv a b := by
  unfold cdiv
  have h1 := Nat.div_add_mod (a + b - 1) b
  have h2 := Nat.mod_lt (a + b - 1) hb
  omega

theorem cdiv_le_iff {a b c : ℕ} (hb : 0 < b) : cdiv a b ≤ c ↔ a ≤ b * c := by
  constructor
  · intro h
    exact le_trans (le_mul_cdiv hb) (Nat.mul_le_mul_left b h)
  · intro h
    unfold cdiv
    rw [← Nat.lt_add_one_iff, Nat.div_lt_iff_lt_mul hb]
    have : (c + 1) * b = b * c + b := by ring
    omega

theorem lt_cdiv_iff {a b c : ℕ} (hb : 0 < b) : c < cdiv a b ↔ b * c < a := by
  rw [← not_le, ← not_le, not_iff_not]; exact cdiv_le_iff hb

theorem cdiv_mul {a b : ℕ} (hb : 0 < b) : cdiv (b * a) b = a := by
  apply le_antisymm
  · exact (cdiv_le_iff hb).2 le_rfl
  · by_contra h
    push Not at h
    have := le_mul_cdiv (a := b * a) hb
    have h3 := Nat.mul_lt_mul_of_pos_left h hb
    omega

theorem cdiv_mono {a a' b : ℕ} (hb : 0 < b) (h : a ≤ a') : cdiv a b ≤ cdiv a' b :=
  (cdiv_le_iff hb).2 (le_trans h (le_mul_cdiv hb))

/-- The position in a page. -/
def inPage (i : Quad) : ℕ := i.e2 % 32 * 64 + i.e1 % 64

/-- The page of an element. -/
def pageOf (s i : Quad) : ℕ := pageAt s i.e4 (i.e1 / 64) i.e3 (i.e2 / 32)

theorem addr_eq (s i : Quad) : addr s i = 2048 * pageOf s i + inPage i := by
  unfold addr pageOf pageAt inPage; ring

theorem inPage_lt (i : Quad) : inPage i < 2048 := by
  unfold inPage; omega

theorem addr_div (s i : Quad) : addr s i / 2048 = pageOf s i := by
  have := inPage_lt i
  rw [addr_eq]; omega

theorem addr_mod (s i : Quad) : addr s i % 2048 = inPage i := by
  have := inPage_lt i
  rw [addr_eq]; omega

/-- The index, possibly in the padding, of a cell. -/
def cellIdx (s : Quad) (a : ℕ) : Quad :=
  ⟨a / 2048 / cdiv s.e2 32 / s.e3 / cdiv s.e1 64, a / 2048 / cdiv s.e2 32 % s.e3,
   a / 2048 % cdiv s.e2 32 * 32 + a / 64 % 32,
   a / 2048 / cdiv s.e2 32 / s.e3 % cdiv s.e1 64 * 64 + a % 64⟩

/-- The index of a cell, padding included. -/
def Padded (i s : Quad) : Prop :=
  i.e3 < s.e3 ∧ i.e2 / 32 < cdiv s.e2 32 ∧ i.e1 / 64 < cdiv s.e1 64

theorem addr_cellIdx (s : Quad) (a : ℕ) : addr s (cellIdx s a) = a := by
  rw [addr_eq]
  have h1 : (cellIdx s a).e2 / 32 = a / 2048 % cdiv s.e2 32 := by
    simp only [cellIdx]; omega
  have h2 : (cellIdx s a).e1 / 64 = a / 2048 / cdiv s.e2 32 / s.e3 % cdiv s.e1 64 := by
    simp only [cellIdx]; omega
  have h3 : inPage (cellIdx s a) = a % 2048 := by
    simp only [inPage, cellIdx]; omega
  have hp : pageOf s (cellIdx s a) = a / 2048 := by
    unfold pageOf pageAt
    rw [h1, h2]
    simp only [cellIdx]
    rw [Nat.mod_add_div, Nat.mod_add_div, Nat.mod_add_div]
  rw [hp, h3]
  exact Nat.div_add_mod a 2048

theorem pageAt_split (s : Quad) (p6 p5 p4 p3 : ℕ) (h3 : p3 < cdiv s.e2 32) (h4 : p4 < s.e3)
    (h5 : p5 < cdiv s.e1 64) :
    pageAt s p6 p5 p4 p3 % cdiv s.e2 32 = p3 ∧
    pageAt s p6 p5 p4 p3 / cdiv s.e2 32 % s.e3 = p4 ∧
    pageAt s p6 p5 p4 p3 / cdiv s.e2 32 / s.e3 % cdiv s.e1 64 = p5 ∧
    pageAt s p6 p5 p4 p3 / cdiv s.e2 32 / s.e3 / cdiv s.e1 64 = p6 := by
  have e1 : pageAt s p6 p5 p4 p3 / cdiv s.e2 32 = p4 + s.e3 * (p5 + cdiv s.e1 64 * p6) := by
    unfold pageAt
    rw [Nat.add_mul_div_left _ _ (by omega), Nat.div_eq_of_lt h3, Nat.zero_add]
  have e2 : pageAt s p6 p5 p4 p3 / cdiv s.e2 32 / s.e3 = p5 + cdiv s.e1 64 * p6 := by
    rw [e1, Nat.add_mul_div_left _ _ (by omega), Nat.div_eq_of_lt h4, Nat.zero_add]
  refine ⟨?_, ?_, ?_, ?_⟩
  · unfold pageAt
    rw [Nat.add_mul_mod_self_left, Nat.mod_eq_of_lt h3]
  · rw [e1, Nat.add_mul_mod_self_left, Nat.mod_eq_of_lt h4]
  · rw [e2, Nat.add_mul_mod_self_left, Nat.mod_eq_of_lt h5]
  · rw [e2, Nat.add_mul_div_left _ _ (by omega), Nat.div_eq_of_lt h5, Nat.zero_add]

theorem cellIdx_addr {s i : Quad} (h : Padded i s) : cellIdx s (addr s i) = i := by
  obtain ⟨h4, h3, h5⟩ := h
  have hs := pageAt_split s i.e4 (i.e1 / 64) i.e3 (i.e2 / 32) h3 h4 h5
  have hd := addr_div s i
  have hm := addr_mod s i
  unfold pageOf at hd
  unfold inPage at hm
  unfold cellIdx
  rw [hd, hs.1, hs.2.1, hs.2.2.1, hs.2.2.2]
  have hr : addr s i / 64 % 32 = i.e2 % 32 := by omega
  have hc : addr s i % 64 = i.e1 % 64 := by omega
  rw [hr, hc]
  cases i
  simp only [Quad.mk.injEq, true_and]
  constructor <;> omega

theorem addr_inj {s i j : Quad} (hi : Padded i s) (hj : Padded j s) (h : addr s i = addr s j) :
    i = j := by
  rw [← cellIdx_addr hi, ← cellIdx_addr hj, h]

theorem padded_cellIdx {s : Quad} (hs : Positive s) (a : ℕ) : Padded (cellIdx s a) s := by
  obtain ⟨_, h3, h2, h1⟩ := hs
  have c2 := cdiv_pos h2 (show 0 < 32 by omega)
  have c1 := cdiv_pos h1 (show 0 < 64 by omega)
  have m2 := Nat.mod_lt (a / 2048) c2
  have m1 := Nat.mod_lt (a / 2048 / cdiv s.e2 32 / s.e3) c1
  refine ⟨Nat.mod_lt _ h3, ?_, ?_⟩ <;> simp only [cellIdx] <;> omega

theorem cellIdx_e4_lt {s : Quad} (hs : Positive s) {a : ℕ} (h : a < cells s) :
    (cellIdx s a).e4 < s.e4 := by
  obtain ⟨h4, h3, h2, h1⟩ := hs
  have c2 := cdiv_pos h2 (show 0 < 32 by omega)
  have c1 := cdiv_pos h1 (show 0 < 64 by omega)
  simp only [cellIdx]
  unfold cells at h
  rw [Nat.div_lt_iff_lt_mul c1, Nat.div_lt_iff_lt_mul h3, Nat.div_lt_iff_lt_mul c2]
  have : a / 2048 < cdiv s.e2 32 * (s.e3 * (cdiv s.e1 64 * s.e4)) := by omega
  calc a / 2048 < _ := this
    _ = _ := by ring

theorem page_lt {s : Quad} {p6 p5 p4 p3 n : ℕ} (h3 : p3 < cdiv s.e2 32) (h4 : p4 < s.e3)
    (h5 : p5 < cdiv s.e1 64) (h6 : p6 < n) :
    pageAt s p6 p5 p4 p3 < cdiv s.e2 32 * (s.e3 * (cdiv s.e1 64 * n)) := by
  unfold pageAt
  have a6 : p5 + cdiv s.e1 64 * p6 + 1 ≤ cdiv s.e1 64 * n := by
    calc p5 + cdiv s.e1 64 * p6 + 1 ≤ cdiv s.e1 64 * (p6 + 1) := by ring_nf; omega
      _ ≤ _ := Nat.mul_le_mul_left _ h6
  have a5 : p4 + s.e3 * (p5 + cdiv s.e1 64 * p6) + 1 ≤ s.e3 * (cdiv s.e1 64 * n) := by
    calc _ ≤ s.e3 * (p5 + cdiv s.e1 64 * p6 + 1) := by ring_nf; omega
      _ ≤ _ := Nat.mul_le_mul_left _ a6
  calc _ < cdiv s.e2 32 * (p4 + s.e3 * (p5 + cdiv s.e1 64 * p6) + 1) := by ring_nf; omega
    _ ≤ _ := Nat.mul_le_mul_left _ a5

theorem addr_lt {s i : Quad} (h : Padded i s) (h4 : i.e4 < s.e4) : addr s i < cells s := by
  have hp := page_lt h.2.1 h.1 h.2.2 h4
  have := inPage_lt i
  rw [addr_eq]
  unfold cells pageOf
  omega

theorem padded_of_inside {i s : Quad} (h : Inside i s) : Padded i s := by
  obtain ⟨_, h3, h2, h1⟩ := h
  refine ⟨h3, ?_, ?_⟩
  · rw [lt_cdiv_iff (by omega)]; omega
  · rw [lt_cdiv_iff (by omega)]; omega

theorem addr_inside_lt {i s : Quad} (h : Inside i s) : addr s i < cells s :=
  addr_lt (padded_of_inside h) h.1

theorem bufferSize_eq (s : Quad) : bufferSize s = 2 * cells s := by
  unfold bufferSize cells; ring

end Verif.Zdnnx
