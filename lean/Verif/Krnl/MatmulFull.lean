import Verif.Krnl.LoopLemmas
import Verif.Krnl.MatmulTile
import Mathlib.Data.Fintype.Pi
import Mathlib.Data.Fin.VecNotation
import Mathlib.Tactic.FinCases

/-!
Lowering of ONNX `MatMul` to tiled `krnl.matmul` loops, and of the generic case.

Source: /repo/src/Conversion/ONNXToKrnl/Math/MatMul.cpp.
-/

namespace Verif.Krnl

open Finset

/-! ### Model -/

/-- `KrnlBuilder::blockAndPermute` (/repo/src/Dialect/Krnl/DialectBuilder.cpp
149-184) for three loops and three block sizes; the inner loops are consumed by
`krnl.matmul`, not by a `krnl.iterate`. -/
def blockAndPermute3 (tI tJ tK : ℕ) : List SOp :=
  [.block 0 tI false, .block 2 tJ false, .block 4 tK false, .permute [0, 3, 1, 4, 2, 5]]

/-- Register tiles and simd flag. -/
structure Tiles where
  i : ℕ
  j : ℕ
  k : ℕ
  simdize : Bool
deriving DecidableEq, Repr

/-- `computeTileSizeForMatMatProduct` (MatMul.cpp 143-215). -/
def tilesMatMat (I J K : IE) (simdize : Bool) : Tiles :=
  let i := if I.lit = true ∧ I.val < 4 then I.val.toNat else 4
  let j : ℕ := if J.lit = true then
      (if J.val = 1 then 1 else if J.val % 8 ≠ 0 ∧ J.val % 4 = 0 ∧ J.val ≤ 32 then 4 else 8)
    else 8
  let simdize := if J.lit = true ∧ J.val < j then false else simdize
  let k := if K.lit = true ∧ K.val < 8 then K.val.toNat else 8
  { i := i, j := j, k := k, simdize := simdize }

/-- `computeTileSizeForMatVectProduct` (MatMul.cpp 217-272); `VL` is the machine
vector length. -/
def tilesMatVect (VL : ℕ) (I K : IE) (simdize : Bool) : Tiles :=
  let (k, s1) :=
    if K.lit = true then
      let k := (K.val.toNat / VL) * VL
      if k > 64 * VL then (64 * VL, simdize)
      else if k < VL then (1, false) else (k, simdize)
    else (16 * VL, simdize)
  let (i, s2) :=
    if I.lit = true ∧ I.val < 2 * VL then
      let i := (I.val.toNat / VL) * VL
      if i < VL then (1, false) else (i, s1)
    else (2 * VL, s1)
  { i := i, j := 1, k := k, simdize := s2 }

section
variable {R : Type*} [Semiring R]

/-- The body of the tile loops: a `krnl.matmul` at the start of a tile. -/
def MM.at (m : MM) (t : Box 3) : MM :=
  { m with i0 := (t 0).1, j0 := (t 1).1, k0 := (t 2).1 }

/-- A `krnl.iterate` over tiles whose body is a `krnl.matmul`. -/
def MM.tiles (m : MM) (nest : List (Lp 3)) (b : Box 3) (A B c : ℤ → R) : Option (ℤ → R) :=
  (boxes nest b).foldlM (fun c t => (m.at t).exec A B c) c

/-- `replace2x2Matmul2d` (MatMul.cpp 278-327), also the body of the broadcast loop
of `replace2x2Matmul2dBroadcasting` (lines 336-432): `aBase`, `bBase` and `cBase`
are the row-major offsets of the 2D matrices of the current batch.  The parallel
annotation of the outermost loop (lines 315-319) does not change the nest.
The destination has already been cleared by `create.krnl.memset`. -/
def matmul2d (simd : Bool) (archVL : ℕ) (aBase bBase cBase : ℤ) (I J K : IE)
    (A B c : ℤ → R) : Option (ℤ → R) :=
  let t := if J.lit = true ∧ J.val = 1 then tilesMatVect archVL I K simd
    else tilesMatMat I J K simd
  (applyAll (initNest 3) (blockAndPermute3 t.i t.j t.k)).bind fun nest =>
    MM.tiles { a := ⟨aBase, I.val, K.val⟩, b := ⟨bBase, K.val, J.val⟩, c := ⟨cBase, I.val, J.val⟩,
               aMem := (0, 0), bMem := (0, 0), cMem := (0, 0),
               i0 := 0, j0 := 0, k0 := 0, iUB := I, jUB := J, kUB := K,
               tI := t.i, tJ := t.j, tK := t.k, simdize := t.simdize, unroll := true,
               archVL := archVL }
      nest ![(0, I.val), (0, J.val), (0, K.val)] A B c

/-- `replace2x2Matmul2dBroadcasting` (MatMul.cpp 336-432) after the memset of
lines 364: the batch loops in row-major order, one 2D product per batch.  A
batched operand starts at `q * rows * cols`, an operand of rank 2 at 0 (lines
404-429).  Simplified: the batch index tuple is represented by its row-major
position `q`. -/
def matmulBatched (simd : Bool) (archVL : ℕ) (aBatched bBatched : Bool) (nb : ℕ) (I J K : IE)
    (A B c : ℤ → R) : Option (ℤ → R) :=
  (List.range nb).foldlM (fun c (q : ℕ) =>
    matmul2d simd archVL (if aBatched then q * (I.val * K.val) else 0)
      (if bBatched then q * (K.val * J.val) else 0) (q * (I.val * J.val)) I J K A B c) c

end

/-! ### Tiles of a nest -/

theorem boxes_tile {n : ℕ} (nest : List (Lp n)) (d : Fin n) (t : ℕ) (ht : 0 < t) (hi : ℤ) :
    (∀ l ∈ nest, 0 < l.step) → (∀ l ∈ nest, l.dim = d → l.triv = false → t ∣ l.step) →
    ∀ (b c : Box n), c ∈ boxes nest b → (t : ℤ) ∣ (b d).1 → (b d).2 ≤ hi →
      ((b d).2 = hi ∨ (t : ℤ) ∣ (b d).2) →
      (((b d).1 < (b d).2 ∧ (b d).2 = min ((b d).1 + t) hi) ∨
        ∃ l ∈ nest, l.dim = d ∧ l.step = t ∧ l.triv = false) →
      (c d).1 < (c d).2 ∧ (c d).2 = min ((c d).1 + t) hi ∧ (t : ℤ) ∣ (c d).1 := by
  have htz : (0 : ℤ) < t := by exact_mod_cast ht
  induction nest with
  | nil =>
    intro _ _ b c hc h1 h2 h3 h4
    simp only [boxes, List.mem_singleton] at hc
    subst hc
    rcases h4 with h | ⟨l, hl, _⟩
    · exact ⟨h.1, h.2, h1⟩
    · simp at hl
  | cons l ls ih =>
    intro hs hdv b c hc h1 h2 h3 h4
    have hl := hs l (by simp)
    have ih' := ih (fun m hm => hs m (by simp [hm])) (fun m hm => hdv m (by simp [hm]))
    rw [boxes] at hc
    by_cases htr : l.triv
    · rw [if_pos htr] at hc
      refine ih' b c hc h1 h2 h3 ?_
      rcases h4 with h | ⟨m, hm, e1, e2, e3⟩
      · exact Or.inl h
      · rcases List.mem_cons.1 hm with rfl | hm
        · rw [htr] at e3; exact absurd e3 (by simp)
        · exact Or.inr ⟨m, hm, e1, e2, e3⟩
    · rw [if_neg htr, List.mem_flatMap] at hc
      obtain ⟨x, hx, hc⟩ := hc
      obtain ⟨k, rfl, hlt⟩ := (mem_starts hl).1 hx
      have h0 : (0 : ℤ) ≤ k * l.step := by positivity
      by_cases hd : d = l.dim
      · subst hd
        have htl : (t : ℤ) ∣ (l.step : ℤ) := by
          exact_mod_cast hdv l (by simp) rfl (by simpa using htr)
        have hls : (t : ℤ) ≤ l.step := Int.le_of_dvd (by exact_mod_cast hl) htl
        have hdx : (t : ℤ) ∣ (b l.dim).1 + k * l.step :=
          dvd_add h1 (Dvd.dvd.mul_left htl _)
        refine ih' _ c hc ?_ ?_ ?_ ?_
        · simpa only [Function.update_self] using hdx
        · simp only [Function.update_self]; omega
        · simp only [Function.update_self]
          rcases le_total ((b l.dim).1 + k * l.step + l.step) (b l.dim).2 with h | h
          · right; rw [min_eq_left h]; exact dvd_add hdx htl
          · rw [min_eq_right h]; exact h3
        · simp only [Function.update_self]
          rcases h4 with h | ⟨m, hm, e1, e2, e3⟩
          · left
            obtain ⟨ha, hb⟩ := h
            have hk : k = 0 := by
              by_contra hk
              have : (1 : ℤ) ≤ k := by omega
              have : (l.step : ℤ) ≤ k * l.step := le_mul_of_one_le_left (by omega) this
              omega
            subst hk
            simp only [Nat.cast_zero, zero_mul, add_zero] at hlt ⊢
            omega
          · rcases List.mem_cons.1 hm with rfl | hm
            · left
              rw [e2] at hlt hdx ⊢
              refine ⟨by omega, ?_⟩
              rcases h3 with h3 | h3
              · rw [h3]
              · generalize (b m.dim).1 + k * t = x at *
                obtain ⟨u, hu⟩ := h3
                obtain ⟨v, hv⟩ := hdx
                have : v < u := by
                  rw [hu, hv] at hlt
                  exact lt_of_mul_lt_mul_left hlt (le_of_lt htz)
                have : x + t ≤ (b m.dim).2 := by
                  rw [hu, hv]; nlinarith
                omega
            · exact Or.inr ⟨m, hm, e1, e2, e3⟩
      · refine ih' _ c hc ?_ ?_ ?_ ?_
        · rwa [Function.update_of_ne hd]
        · rwa [Function.update_of_ne hd]
        · rwa [Function.update_of_ne hd]
        · rw [Function.update_of_ne hd]
          rcases h4 with h | ⟨m, hm, e1, e2, e3⟩
          · exact Or.inl h
          · rcases List.mem_cons.1 hm with rfl | hm
            · exact absurd e1.symm hd
            · exact Or.inr ⟨m, hm, e1, e2, e3⟩

/-- The points of a box. -/
def pts {n : ℕ} (b : Box n) : Finset (Fin n → ℤ) :=
  Fintype.piFinset fun d => Ico (b d).1 (b d).2

theorem mem_pts {n : ℕ} {b : Box n} {p : Fin n → ℤ} : p ∈ pts b ↔ InBox p b := by
  simp [pts, InBox, Fintype.mem_piFinset]

/-- Summing over the visited tiles is summing over the whole domain. -/
theorem sum_boxes {n : ℕ} {M : Type*} [AddCommMonoid M] (nest : List (Lp n))
    (h : ∀ l ∈ nest, 0 < l.step) (b : Box n) (F : (Fin n → ℤ) → M) :
    ((boxes nest b).map fun t => ∑ p ∈ pts t, F p).sum = ∑ p ∈ pts b, F p := by
  have h1 : ∀ t ∈ boxes nest b, ∑ p ∈ pts t, F p =
      ∑ p ∈ pts b, if InBox p t then F p else 0 := by
    intro t ht
    rw [← Finset.sum_filter]
    refine Finset.sum_congr ?_ fun _ _ => rfl
    ext p
    rw [Finset.mem_filter, mem_pts, mem_pts]
    constructor
    · intro hp
      refine ⟨fun d => ?_, hp⟩
      have := boxes_sub nest h b t ht d
      have := hp d
      omega
    · exact fun hp => hp.2
  rw [List.map_congr_left h1]
  have h2 : ∀ (L : List (Box n)),
      (L.map fun t => ∑ p ∈ pts b, if InBox p t then F p else 0).sum =
      ∑ p ∈ pts b, (L.countP fun t => decide (InBox p t)) • F p := by
    intro L
    induction L with
    | nil => simp
    | cons a L ih =>
      rw [List.map_cons, List.sum_cons, ih, ← Finset.sum_add_distrib]
      refine Finset.sum_congr rfl fun p _ => ?_
      rw [List.countP_cons, add_nsmul, add_comm]
      congr 1
      by_cases hp : InBox p a <;> simp [hp, one_nsmul]
  rw [h2]
  refine Finset.sum_congr rfl fun p hp => ?_
  rw [boxes_countP nest h, if_pos (mem_pts.1 hp), one_nsmul]

theorem sum_pts_three {M : Type*} [AddCommMonoid M] (b : Box 3) (F : (Fin 3 → ℤ) → M) :
    ∑ p ∈ pts b, F p = ∑ i ∈ Ico (b 0).1 (b 0).2, ∑ j ∈ Ico (b 1).1 (b 1).2,
      ∑ k ∈ Ico (b 2).1 (b 2).2, F ![i, j, k] := by
  have e : ∀ i, (∑ j ∈ Ico (b 1).1 (b 1).2, ∑ k ∈ Ico (b 2).1 (b 2).2, F ![i, j, k]) =
      ∑ q ∈ Ico (b 1).1 (b 1).2 ×ˢ Ico (b 2).1 (b 2).2, F ![i, q.1, q.2] := by
    intro i; rw [Finset.sum_product]
  simp only [e]
  have := Finset.sum_product (Ico (b 0).1 (b 0).2) (Ico (b 1).1 (b 1).2 ×ˢ Ico (b 2).1 (b 2).2)
    (fun q => F ![q.1, q.2.1, q.2.2])
  rw [← this]
  symm
  refine Finset.sum_bij (fun q _ => ![q.1, q.2.1, q.2.2]) ?_ ?_ ?_ ?_
  · rintro ⟨i, j, k⟩ h
    simp only [Finset.mem_product, mem_Ico] at h
    rw [mem_pts]
    intro d
    fin_cases d
    · exact h.1
    · exact h.2.1
    · exact h.2.2
  · rintro ⟨i, j, k⟩ _ ⟨i', j', k'⟩ _ h
    have h0 := congrFun h 0
    have h1 := congrFun h 1
    have h2 := congrFun h 2
    simp only [Matrix.cons_val_zero, Matrix.cons_val_one, Matrix.cons_val_two,
      Matrix.head_cons, Matrix.tail_cons, Matrix.cons_val] at h0 h1 h2
    subst h0 h1 h2; rfl
  · intro p hp
    rw [mem_pts] at hp
    refine ⟨(p 0, p 1, p 2), ?_, ?_⟩
    · simp only [Finset.mem_product, mem_Ico]
      exact ⟨hp 0, hp 1, hp 2⟩
    · funext d; fin_cases d <;> rfl
  · intro _ _; rfl

section
variable {R : Type*} [Semiring R]

/-- Contribution of one index triple. -/
def MM.point (m : MM) (A B : ℤ → R) (p : Fin 3 → ℤ) : ℤ → R := fun y =>
  if y = m.c.flat (p 0 - m.cMem.1) (p 1 - m.cMem.2) then
    A (m.a.flat (p 0 - m.aMem.1) (p 2 - m.aMem.2)) *
      B (m.b.flat (p 2 - m.bMem.1) (p 1 - m.bMem.2)) else 0

theorem MM.blockSum_eq (m : MM) (A B : ℤ → R) (b : Box 3) :
    m.blockSum A B (b 0).1 (b 0).2 (b 1).1 (b 1).2 (b 2).1 (b 2).2 =
      ∑ p ∈ pts b, m.point A B p := by
  rw [sum_pts_three]
  unfold MM.blockSum
  refine Finset.sum_congr rfl fun i _ => Finset.sum_congr rfl fun j _ => ?_
  funext y
  rw [Finset.sum_apply]
  simp only [MM.point, Matrix.cons_val_zero, Matrix.cons_val_one, Matrix.cons_val]
  by_cases h : y = m.c.flat (i - m.cMem.1) (j - m.cMem.2)
  · rw [if_pos h]
    exact Finset.sum_congr rfl fun k _ => (if_pos h).symm
  · rw [if_neg h]
    exact (Finset.sum_eq_zero fun k _ => if_neg h).symm

/-- What a nest must satisfy for tiles of size `t` in dimension `d`. -/
def Tiled {n : ℕ} (nest : List (Lp n)) (b : Box n) (d : Fin n) (t : ℕ) (hi : ℤ) : Prop :=
  0 < t ∧ (∀ l ∈ nest, l.dim = d → l.triv = false → t ∣ l.step) ∧
    (((b d).1 < (b d).2 ∧ (b d).2 = min ((b d).1 + t) hi) ∨
      ∃ l ∈ nest, l.dim = d ∧ l.step = t ∧ l.triv = false)

/-- The tile loops compute the product of the whole box. -/
theorem MM.tiles_spec (m : MM) (nest : List (Lp 3)) (b : Box 3) (A B c : ℤ → R)
    (hpos : ∀ l ∈ nest, 0 < l.step)
    (tI : Tiled nest b 0 m.tI m.iUB.val) (tJ : Tiled nest b 1 m.tJ m.jUB.val)
    (tK : Tiled nest b 2 m.tK m.kUB.val)
    (dI : (m.tI : ℤ) ∣ (b 0).1) (dJ : (m.tJ : ℤ) ∣ (b 1).1) (dK : (m.tK : ℤ) ∣ (b 2).1)
    (uI : (b 0).2 ≤ m.iUB.val) (uJ : (b 1).2 ≤ m.jUB.val) (uK : (b 2).2 ≤ m.kUB.val)
    (eI : (b 0).2 = m.iUB.val ∨ (m.tI : ℤ) ∣ (b 0).2)
    (eJ : (b 1).2 = m.jUB.val ∨ (m.tJ : ℤ) ∣ (b 1).2)
    (eK : (b 2).2 = m.kUB.val ∨ (m.tK : ℤ) ∣ (b 2).2)
    (j0 : 0 ≤ (b 1).1)
    (fa : Fits m.a ((b 0).1 - m.aMem.1, (b 2).1 - m.aMem.2) ((b 0).2 - (b 0).1) ((b 2).2 - (b 2).1))
    (fb : Fits m.b ((b 2).1 - m.bMem.1, (b 1).1 - m.bMem.2) ((b 2).2 - (b 2).1) ((b 1).2 - (b 1).1))
    (fc : Fits m.c ((b 0).1 - m.cMem.1, (b 1).1 - m.cMem.2) ((b 0).2 - (b 0).1) ((b 1).2 - (b 1).1))
    (hvl : ∃ e, m.archVL = 2 ^ e)
    (hvec : m.simdize = true → m.jUB.lit = true → m.jUB.val = 1 → m.b.cols = 1 ∧ m.c.cols = 1) :
    m.tiles nest b A B c = some (c + ∑ p ∈ pts b, m.point A B p) := by
  obtain ⟨c', e', _, hc'⟩ := foldlM_acc (fun c : ℤ → R => c) (fun _ => True)
    (fun c t => (m.at t).exec A B c) (fun t => ∑ p ∈ pts t, m.point A B p) (boxes nest b) (by
      intro t ht c _
      obtain ⟨i1, i2, i3⟩ := boxes_tile nest 0 m.tI tI.1 m.iUB.val hpos tI.2.1 b t ht dI uI eI
        tI.2.2
      obtain ⟨j1, j2, j3⟩ := boxes_tile nest 1 m.tJ tJ.1 m.jUB.val hpos tJ.2.1 b t ht dJ uJ eJ
        tJ.2.2
      obtain ⟨k1, k2, k3⟩ := boxes_tile nest 2 m.tK tK.1 m.kUB.val hpos tK.2.1 b t ht dK uK eK
        tK.2.2
      have si := boxes_sub nest hpos b t ht 0
      have sj := boxes_sub nest hpos b t ht 1
      have sk := boxes_sub nest hpos b t ht 2
      refine ⟨_, MM.exec_spec (m.at t) A B c tI.1 tJ.1 tK.1 i3 j3 k3 ?_ ?_ ?_ ?_ ?_ ?_ ?_ hvl hvec,
        trivial, ?_⟩
      · show (t 0).1 < m.iUB.val; omega
      · show (t 1).1 < m.jUB.val; omega
      · show (t 2).1 < m.kUB.val; omega
      · obtain ⟨h1, h2, h3, h4⟩ := fa
        simp only [MM.at, MM.aStart] at *
        rw [← i2, ← k2]
        exact ⟨by simp only; omega, by simp only; omega, by simp only; omega, by simp only; omega⟩
      · obtain ⟨h1, h2, h3, h4⟩ := fb
        simp only [MM.at, MM.bStart] at *
        rw [← j2, ← k2]
        exact ⟨by simp only; omega, by simp only; omega, by simp only; omega, by simp only; omega⟩
      · obtain ⟨h1, h2, h3, h4⟩ := fc
        simp only [MM.at, MM.cStart] at *
        rw [← i2, ← j2]
        exact ⟨by simp only; omega, by simp only; omega, by simp only; omega, by simp only; omega⟩
      · show 0 ≤ (t 1).1; omega
      · congr 1
        rw [← MM.blockSum_eq]
        simp only [MM.at]
        rw [← i2, ← j2, ← k2]
        rfl) c trivial
  unfold MM.tiles
  rw [e', hc', sum_boxes nest hpos]

theorem perm6 {α : Type*} (a b c x y z : α) : [a, b, c, x, y, z].Perm [a, x, b, y, c, z] := by
  classical
  rw [List.perm_iff_count]
  intro q
  simp only [List.count_cons, List.count_nil]
  omega

theorem blockAndPermute3_eq (tI tJ tK : ℕ) (hI : 0 < tI) (hJ : 0 < tJ) (hK : 0 < tK) :
    applyAll (initNest 3) (blockAndPermute3 tI tJ tK) =
      some [⟨0, tI, false⟩, ⟨1, tJ, false⟩, ⟨2, tK, false⟩,
        ⟨0, 1, true⟩, ⟨1, 1, true⟩, ⟨2, 1, true⟩] := by
  have h0 : initNest 3 = [⟨0, 1, false⟩, ⟨1, 1, false⟩, ⟨2, 1, false⟩] := by decide +kernel
  rw [h0]
  have a1 : applyOp (n := 3) [⟨0, 1, false⟩, ⟨1, 1, false⟩, ⟨2, 1, false⟩] (.block 0 tI false) =
      some [⟨0, tI, false⟩, ⟨0, 1, true⟩, ⟨1, 1, false⟩, ⟨2, 1, false⟩] := by
    simp [applyOp, blockAt, hI.ne']
  have a2 : applyOp (n := 3) [⟨0, tI, false⟩, ⟨0, 1, true⟩, ⟨1, 1, false⟩, ⟨2, 1, false⟩]
      (.block 2 tJ false) =
      some [⟨0, tI, false⟩, ⟨0, 1, true⟩, ⟨1, tJ, false⟩, ⟨1, 1, true⟩, ⟨2, 1, false⟩] := by
    simp [applyOp, blockAt, hJ.ne']
  have a3 : applyOp (n := 3)
      [⟨0, tI, false⟩, ⟨0, 1, true⟩, ⟨1, tJ, false⟩, ⟨1, 1, true⟩, ⟨2, 1, false⟩]
      (.block 4 tK false) =
      some [⟨0, tI, false⟩, ⟨0, 1, true⟩, ⟨1, tJ, false⟩, ⟨1, 1, true⟩, ⟨2, tK, false⟩,
        ⟨2, 1, true⟩] := by
    simp [applyOp, blockAt, hK.ne']
  have p4 : permuteNest (n := 3)
      [⟨0, tI, false⟩, ⟨0, 1, true⟩, ⟨1, tJ, false⟩, ⟨1, 1, true⟩, ⟨2, tK, false⟩, ⟨2, 1, true⟩]
      [0, 3, 1, 4, 2, 5] =
      some [⟨0, tI, false⟩, ⟨1, tJ, false⟩, ⟨2, tK, false⟩,
        ⟨0, 1, true⟩, ⟨1, 1, true⟩, ⟨2, 1, true⟩] := by
    rfl
  have a4 : applyOp (n := 3)
      [⟨0, tI, false⟩, ⟨0, 1, true⟩, ⟨1, tJ, false⟩, ⟨1, 1, true⟩, ⟨2, tK, false⟩, ⟨2, 1, true⟩]
      (.permute [0, 3, 1, 4, 2, 5]) =
      some [⟨0, tI, false⟩, ⟨1, tJ, false⟩, ⟨2, tK, false⟩,
        ⟨0, 1, true⟩, ⟨1, 1, true⟩, ⟨2, 1, true⟩] := by
    unfold applyOp
    simp only
    rw [p4]
    simp only [Option.bind_some]
    rw [if_pos]
    constructor
    · exact perm6 _ _ _ _ _ _
    · intro d; fin_cases d <;> rfl
  unfold blockAndPermute3
  simp only [applyAll, a1, a2, a3, a4, Option.bind_some]

theorem tilesMatMat_pos {I J K : IE} {s : Bool} (hI : 0 ≤ I.val) (hK : 0 ≤ K.val)
    (nI : I.lit = true → I.val ≠ 0) (nK : K.lit = true → K.val ≠ 0) :
    0 < (tilesMatMat I J K s).i ∧ 0 < (tilesMatMat I J K s).j ∧ 0 < (tilesMatMat I J K s).k := by
  unfold tilesMatMat
  simp only
  refine ⟨?_, ?_, ?_⟩
  · split
    · rename_i h; have := nI h.1; omega
    · omega
  · split
    · split
      · omega
      · split <;> omega
    · omega
  · split
    · rename_i h; have := nK h.1; omega
    · omega

theorem tilesMatVect_pos {I K : IE} {s : Bool} {VL : ℕ} (hVL : 0 < VL) :
    0 < (tilesMatVect VL I K s).i ∧ (tilesMatVect VL I K s).j = 1 ∧
      0 < (tilesMatVect VL I K s).k := by
  unfold tilesMatVect
  simp only
  refine ⟨?_, trivial, ?_⟩
  · split
    · split
      · omega
      · simp only; omega
    · simp only; omega
  · split
    · split
      · simp only; omega
      · split
        · simp only; omega
        · simp only; omega
    · simp only; omega

/-- The tiled product, as an update of the destination memory. -/
theorem matmul2d_spec (simd : Bool) (archVL : ℕ) (hvl : ∃ e, archVL = 2 ^ e)
    (aBase bBase cBase : ℤ) (I J K : IE) (A B c : ℤ → R)
    (hI : 0 ≤ I.val) (hJ : 0 ≤ J.val) (hK : 0 ≤ K.val)
    (nI : I.lit = true → I.val ≠ 0) (nK : K.lit = true → K.val ≠ 0) :
    ∃ c', matmul2d simd archVL aBase bBase cBase I J K A B c = some c' ∧
      (∀ i j, 0 ≤ i → i < I.val → 0 ≤ j → j < J.val →
        c' (cBase + i * J.val + j) = c (cBase + i * J.val + j) +
          ∑ k ∈ Ico 0 K.val, A (aBase + i * K.val + k) * B (bBase + k * J.val + j)) ∧
      ∀ y, ¬ (cBase ≤ y ∧ y < cBase + I.val * J.val) → c' y = c y := by
  have hVL : 0 < archVL := by obtain ⟨e, rfl⟩ := hvl; exact Nat.pos_of_ne_zero (by simp)
  unfold matmul2d
  simp only
  set t := if J.lit = true ∧ J.val = 1 then tilesMatVect archVL I K simd
    else tilesMatMat I J K simd with ht
  have hpos : 0 < t.i ∧ 0 < t.j ∧ 0 < t.k := by
    rw [ht]
    split
    · obtain ⟨h1, h2, h3⟩ := tilesMatVect_pos (I := I) (K := K) (s := simd) hVL
      exact ⟨h1, by omega, h3⟩
    · exact tilesMatMat_pos hI hK nI nK
  obtain ⟨p1, p2, p3⟩ := hpos
  rw [blockAndPermute3_eq t.i t.j t.k p1 p2 p3]
  simp only [Option.bind_some]
  rw [MM.tiles_spec (hpos := by
        intro l hl
        simp only [List.mem_cons, List.not_mem_nil, or_false] at hl
        rcases hl with rfl | rfl | rfl | rfl | rfl | rfl <;> simp only <;> omega)
      (tI := ⟨p1, by
        intro l hl h1 h2
        simp only [List.mem_cons, List.not_mem_nil, or_false] at hl
        rcases hl with rfl | rfl | rfl | rfl | rfl | rfl <;> simp_all, Or.inr ⟨_, List.mem_cons_self, rfl, rfl, rfl⟩⟩)
      (tJ := ⟨p2, by
        intro l hl h1 h2
        simp only [List.mem_cons, List.not_mem_nil, or_false] at hl
        rcases hl with rfl | rfl | rfl | rfl | rfl | rfl <;> simp_all, Or.inr ⟨⟨1, t.j, false⟩, by simp, rfl, rfl, rfl⟩⟩)
      (tK := ⟨p3, by
        intro l hl h1 h2
        simp only [List.mem_cons, List.not_mem_nil, or_false] at hl
        rcases hl with rfl | rfl | rfl | rfl | rfl | rfl <;> simp_all, Or.inr ⟨⟨2, t.k, false⟩, by simp, rfl, rfl, rfl⟩⟩)
      (dI := dvd_zero _) (dJ := dvd_zero _) (dK := dvd_zero _)
      (uI := le_refl _) (uJ := le_refl _) (uK := le_refl _)
      (eI := Or.inl rfl) (eJ := Or.inl rfl) (eK := Or.inl rfl) (j0 := le_refl _)
      (fa := ⟨by simp, by simp, by simp, by simp⟩)
      (fb := ⟨by simp, by simp, by simp, by simp⟩)
      (fc := ⟨by simp, by simp, by simp, by simp⟩)
      (hvl := hvl) (hvec := fun _ _ h => ⟨h, h⟩)]
  refine ⟨_, rfl, ?_, ?_⟩
  · intro i j hi0 hi hj0 hj
    simp only [Pi.add_apply, Finset.sum_apply]
    congr 1
    rw [sum_pts_three]
    simp only [Matrix.cons_val_zero, Matrix.cons_val_one, Matrix.cons_val, MM.point, View.flat,
      sub_zero]
    rw [Finset.sum_eq_single i, Finset.sum_eq_single j]
    · refine Finset.sum_congr rfl fun k _ => ?_
      rw [if_pos rfl]
    · intro j' hj' hne
      refine Finset.sum_eq_zero fun k _ => ?_
      rw [if_neg (by omega)]
    · intro h; exact absurd (mem_Ico.2 ⟨hj0, hj⟩) h
    · intro i' hi' hne
      refine Finset.sum_eq_zero fun j' hj' => Finset.sum_eq_zero fun k _ => ?_
      rw [if_neg]
      rw [mem_Ico] at hi' hj'
      intro h
      apply hne
      have h' : (i - i') * J.val = j' - j := by linarith [h, sub_mul i i' J.val]
      rcases lt_trichotomy i i' with hlt | heq | hgt
      · nlinarith
      · exact heq.symm
      · nlinarith
    · intro h; exact absurd (mem_Ico.2 ⟨hi0, hi⟩) h
  · intro y hy
    simp only [Pi.add_apply, Finset.sum_apply]
    rw [Finset.sum_eq_zero, add_zero]
    intro p hp
    rw [mem_pts] at hp
    have h0 := hp 0
    have h1 := hp 1
    simp only [Matrix.cons_val_zero, Matrix.cons_val_one] at h0 h1
    simp only [MM.point, View.flat, sub_zero]
    rw [if_neg]
    rintro rfl
    apply hy
    have h2 : 0 ≤ p 0 * J.val := mul_nonneg h0.1 hJ
    have h3 : (p 0 + 1) * J.val ≤ I.val * J.val := mul_le_mul_of_nonneg_right (by omega) hJ
    rw [add_mul, one_mul] at h3
    omega

/-- The batched product: every matrix of the batch holds its own product. -/
theorem matmulBatched_spec (simd : Bool) (archVL : ℕ) (hvl : ∃ e, archVL = 2 ^ e)
    (aBatched bBatched : Bool) (nb : ℕ) (I J K : IE) (A B c : ℤ → R)
    (hI : 0 ≤ I.val) (hJ : 0 ≤ J.val) (hK : 0 ≤ K.val)
    (nI : I.lit = true → I.val ≠ 0) (nK : K.lit = true → K.val ≠ 0) :
    ∃ c', matmulBatched simd archVL aBatched bBatched nb I J K A B c = some c' ∧
      (∀ (q : ℕ) i j, q < nb → 0 ≤ i → i < I.val → 0 ≤ j → j < J.val →
        c' (q * (I.val * J.val) + i * J.val + j) = c (q * (I.val * J.val) + i * J.val + j) +
          ∑ k ∈ Ico 0 K.val,
            A ((if aBatched then q * (I.val * K.val) else 0) + i * K.val + k) *
            B ((if bBatched then q * (K.val * J.val) else 0) + k * J.val + j)) ∧
      ∀ y, ¬ (0 ≤ y ∧ y < nb * (I.val * J.val)) → c' y = c y := by
  unfold matmulBatched
  induction nb with
  | zero => exact ⟨c, rfl, by intro q i j h; omega, fun _ _ => rfl⟩
  | succ nb ih =>
    obtain ⟨c1, e1, h1, h2⟩ := ih
    obtain ⟨c2, e2, h3, h4⟩ := matmul2d_spec simd archVL hvl
      (if aBatched then nb * (I.val * K.val) else 0)
      (if bBatched then nb * (K.val * J.val) else 0) (nb * (I.val * J.val)) I J K A B c1
      hI hJ hK nI nK
    have hIJ : 0 ≤ I.val * J.val := mul_nonneg hI hJ
    have hnb : (0 : ℤ) ≤ nb * (I.val * J.val) := mul_nonneg (by omega) hIJ
    refine ⟨c2, ?_, ?_, ?_⟩
    · rw [List.range_succ, List.foldlM_append, e1]
      simpa using e2
    · intro q i j hq hi0 hi hj0 hj
      have hij : 0 ≤ i * J.val := mul_nonneg hi0 hJ
      have hij2 : (i + 1) * J.val ≤ I.val * J.val := mul_le_mul_of_nonneg_right (by omega) hJ
      rw [add_mul, one_mul] at hij2
      by_cases hqn : q = nb
      · subst hqn
        rw [h3 i j hi0 hi hj0 hj, h2]
        omega
      · have hq' : q < nb := by omega
        rw [h4, h1 q i j hq' hi0 hi hj0 hj]
        have : ((q : ℤ) + 1) * (I.val * J.val) ≤ nb * (I.val * J.val) :=
          mul_le_mul_of_nonneg_right (by omega) hIJ
        rw [add_mul, one_mul] at this
        omega
    · intro y hy
      push_cast at hy
      rw [add_mul, one_mul] at hy
      rw [h4 y (by omega), h2 y (by omega)]

end

end Verif.Krnl
