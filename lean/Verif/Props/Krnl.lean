import Verif.Krnl.LoopLemmas
import Verif.Krnl.MatmulTile
import Verif.Krnl.MatmulFull
import Verif.Lower.MatMul

/-!
Properties of the krnl loop schedules and of the matrix product kernels.
-/

namespace Verif.Props

open Verif.Krnl

/-! ### C53: a loop schedule runs the body exactly once per index -/

/-- Specification: the index tuple is within the declared loop bounds. -/
def WithinBounds {n : ℕ} (lb ub p : Fin n → ℤ) : Prop := ∀ d, lb d ≤ p d ∧ p d < ub d

instance {n : ℕ} (lb ub p : Fin n → ℤ) : Decidable (WithinBounds lb ub p) := by
  unfold WithinBounds; infer_instance

/-- Loop ranges of an iterate. -/
def rangesOf {n : ℕ} (lb ub : Fin n → ℤ) : Box n := fun d => (lb d, ub d)

/-- For every accepted sequence of block and permute operations (of any length,
any tile sizes, dividing the trip count or not) that keeps the inner loops, the
body runs exactly once for every index tuple within the bounds and never for
another one. -/
theorem C53_schedule_visits_once {n : ℕ} (ops : List SOp) (hops : ∀ o ∈ ops, o.used = true)
    (nest : List (Lp n)) (hn : applyAll (initNest n) ops = some nest) (lb ub p : Fin n → ℤ) :
    (visits nest (rangesOf lb ub)).count p = if WithinBounds lb ub p then 1 else 0 := by
  rw [visits_count (applyAll_full ops _ _ hops (full_initNest n) hn)]
  rfl

/-- Any two accepted schedules of the same iterate run the body on permutations
of the same index list. -/
theorem C53_schedules_permute {n : ℕ} (ops ops' : List SOp)
    (hops : ∀ o ∈ ops, o.used = true) (hops' : ∀ o ∈ ops', o.used = true)
    (nest nest' : List (Lp n)) (hn : applyAll (initNest n) ops = some nest)
    (hn' : applyAll (initNest n) ops' = some nest') (lb ub : Fin n → ℤ) :
    (visits nest (rangesOf lb ub)).Perm (visits nest' (rangesOf lb ub)) := by
  rw [List.perm_iff_count]
  intro p
  rw [C53_schedule_visits_once ops hops nest hn, C53_schedule_visits_once ops' hops' nest' hn']

/-- Consequently a body whose effects at different indices commute leaves the same
state under every accepted schedule. -/
theorem C53_commuting_body_schedule_independent {n : ℕ} {S : Type*}
    (body : S → (Fin n → ℤ) → S)
    (hcomm : ∀ s p q, body (body s p) q = body (body s q) p)
    (ops ops' : List SOp)
    (hops : ∀ o ∈ ops, o.used = true) (hops' : ∀ o ∈ ops', o.used = true)
    (nest nest' : List (Lp n)) (hn : applyAll (initNest n) ops = some nest)
    (hn' : applyAll (initNest n) ops' = some nest') (lb ub : Fin n → ℤ) (s : S) :
    (visits nest (rangesOf lb ub)).foldl body s =
      (visits nest' (rangesOf lb ub)).foldl body s :=
  (C53_schedules_permute ops ops' hops hops' nest nest' hn hn' lb ub).foldl_eq'
    (fun p _ q _ s => hcomm s p q) s

/-- Specification: lexicographic order of index tuples. -/
def LexBefore {n : ℕ} (p q : Fin n → ℤ) : Prop := ∃ d, (∀ d' < d, p d' = q d') ∧ p d < q d

/-- A schedule made of blocks alone keeps the lexicographic execution order, so it
is safe for any body. -/
theorem C53_block_keeps_order {n : ℕ} (ops : List SOp) (hops : ∀ o ∈ ops, o.used = true)
    (hb : ∀ o ∈ ops, o.isBlock = true)
    (nest : List (Lp n)) (hn : applyAll (initNest n) ops = some nest) (lb ub : Fin n → ℤ) :
    (visits nest (rangesOf lb ub)).Pairwise LexBefore := by
  have hf := applyAll_full ops _ _ hops (full_initNest n) hn
  have := boxes_sorted nest hf.1 (applyAll_sorted ops _ _ hb (sorted_initNest n) hn)
    (rangesOf lb ub)
  unfold visits
  rw [List.pairwise_map]
  refine List.Pairwise.imp_of_mem ?_ this
  rintro c e hc - ⟨d, h1, h2⟩
  have hu := boxes_unit nest d hf.1 _ c hc (Or.inr (hf.2 d))
  exact ⟨d, fun d' hd' => congrArg Prod.fst (h1 d' hd'), by show (c d).1 < (e d).1; omega⟩

/-- and hence runs the body on exactly the same list as without any schedule. -/
theorem C53_block_same_execution {n : ℕ} (ops : List SOp) (hops : ∀ o ∈ ops, o.used = true)
    (hb : ∀ o ∈ ops, o.isBlock = true)
    (nest : List (Lp n)) (hn : applyAll (initNest n) ops = some nest) (lb ub : Fin n → ℤ) :
    visits nest (rangesOf lb ub) = visits (initNest n) (rangesOf lb ub) := by
  refine List.Perm.eq_of_pairwise (le := LexBefore) ?_
    (C53_block_keeps_order ops hops hb nest hn lb ub)
    (C53_block_keeps_order [] (by simp) (by simp) _ rfl lb ub)
    (C53_schedules_permute ops [] hops (by simp) _ _ hn rfl lb ub)
  rintro p q - - ⟨d, h1, h2⟩ ⟨e, h3, h4⟩
  exfalso
  rcases lt_trichotomy d e with h | h | h
  · have := h3 d h; omega
  · subst h; omega
  · have := h1 e h; omega

/-- Blocks whose inner loop is replaced by a kernel: the visited tiles are
contained in the bounds and every index tuple is in exactly one of them. -/
theorem C53_tiles_partition {n : ℕ} (ops : List SOp)
    (nest : List (Lp n)) (hn : applyAll (initNest n) ops = some nest) (lb ub : Fin n → ℤ) :
    (∀ p, (boxes nest (rangesOf lb ub)).countP
        (fun t => decide (∀ d, (t d).1 ≤ p d ∧ p d < (t d).2)) =
      if WithinBounds lb ub p then 1 else 0) ∧
    ∀ t ∈ boxes nest (rangesOf lb ub), ∀ d, lb d ≤ (t d).1 ∧ (t d).2 ≤ ub d := by
  have hp := applyAll_pos ops _ _ (full_initNest n).1 hn
  exact ⟨fun p => boxes_countP nest hp _ p, fun t ht d => boxes_sub nest hp _ t ht d⟩

/-- The schedule of the gemm kernels: two loops blocked twice and permuted. -/
example : applyAll (initNest 2)
    [.block 0 32 true, .block 1 4 true, .block 3 16 true,
     .permute [0, 2, 4, 1, 3]] =
    some [⟨0, 32, false⟩, ⟨1, 16, false⟩, ⟨0, 4, false⟩, ⟨1, 1, false⟩, ⟨0, 1, false⟩] := by
  decide +kernel

/-- When a nested iterate carries values, the loops it re-creates get a unit step:
if such a loop had been blocked, the body runs several times for one index. -/
theorem C53_recreated_loop_false :
    ∃ (nest : List (Lp 1)), applyAll (initNest 1) [.block 0 4 true, .block 1 2 true] = some nest ∧
      (visits nest (rangesOf (fun _ => 0) (fun _ => 4))).count (fun _ => 1) = 1 ∧
      (visitsRec (nest.zip [false, true, false]) (rangesOf (fun _ => 0) (fun _ => 4))).count
        (fun _ => 1) = 2 := by
  refine ⟨[⟨0, 4, false⟩, ⟨0, 2, false⟩, ⟨0, 1, false⟩], by decide +kernel, by decide +kernel,
    by decide +kernel⟩

/-! ### C54: one `krnl.matmul` adds the product of one clipped tile -/

/-- Specification: `[s, s + t)` clipped to the upper bound. -/
def clip (s : ℤ) (t : ℕ) (ub : ℤ) : ℤ := min (s + t) ub

/-- For every element type that is a semiring, every literal or dynamic bound, every
simd and unroll choice and every machine vector length (a power of two), a
`krnl.matmul` at a tile start adds to each element of the clipped destination tile
the sum of products over the clipped reduction tile, writes nothing else and makes
no access outside of the three buffers. -/
theorem C54_matmul_tile {R : Type*} [Semiring R] (m : MM) (A B c : ℤ → R)
    (tiles : 0 < m.tI ∧ 0 < m.tJ ∧ 0 < m.tK)
    (aligned : (m.tI : ℤ) ∣ m.i0 ∧ (m.tJ : ℤ) ∣ m.j0 ∧ (m.tK : ℤ) ∣ m.k0)
    (inside : m.i0 < m.iUB.val ∧ 0 ≤ m.j0 ∧ m.j0 < m.jUB.val ∧ m.k0 < m.kUB.val)
    (aFits : 0 ≤ m.i0 - m.aMem.1 ∧ clip m.i0 m.tI m.iUB.val - m.aMem.1 ≤ m.a.rows ∧
      0 ≤ m.k0 - m.aMem.2 ∧ clip m.k0 m.tK m.kUB.val - m.aMem.2 ≤ m.a.cols)
    (bFits : 0 ≤ m.k0 - m.bMem.1 ∧ clip m.k0 m.tK m.kUB.val - m.bMem.1 ≤ m.b.rows ∧
      0 ≤ m.j0 - m.bMem.2 ∧ clip m.j0 m.tJ m.jUB.val - m.bMem.2 ≤ m.b.cols)
    (cFits : 0 ≤ m.i0 - m.cMem.1 ∧ clip m.i0 m.tI m.iUB.val - m.cMem.1 ≤ m.c.rows ∧
      0 ≤ m.j0 - m.cMem.2 ∧ clip m.j0 m.tJ m.jUB.val - m.cMem.2 ≤ m.c.cols)
    (vl : ∃ e, m.archVL = 2 ^ e)
    (vec : m.simdize = true → m.jUB.lit = true → m.jUB.val = 1 → m.b.cols = 1 ∧ m.c.cols = 1) :
    ∃ c', m.exec A B c = some c' ∧
      (∀ i j, m.i0 ≤ i → i < clip m.i0 m.tI m.iUB.val → m.j0 ≤ j → j < clip m.j0 m.tJ m.jUB.val →
        c' (m.c.flat (i - m.cMem.1) (j - m.cMem.2)) = c (m.c.flat (i - m.cMem.1) (j - m.cMem.2)) +
          ∑ k ∈ Finset.Ico m.k0 (clip m.k0 m.tK m.kUB.val),
            A (m.a.flat (i - m.aMem.1) (k - m.aMem.2)) *
              B (m.b.flat (k - m.bMem.1) (j - m.bMem.2))) ∧
      ∀ y, (∀ i j, m.i0 ≤ i → i < clip m.i0 m.tI m.iUB.val → m.j0 ≤ j →
        j < clip m.j0 m.tJ m.jUB.val → y ≠ m.c.flat (i - m.cMem.1) (j - m.cMem.2)) → c' y = c y := by
  unfold clip at *
  refine MM.exec_elements m A B c tiles.1 tiles.2.1 tiles.2.2 aligned.1 aligned.2.1 aligned.2.2
    inside.1 inside.2.2.1 inside.2.2.2 ?_ ?_ ?_ inside.2.1 vl vec
  · exact ⟨aFits.1, by simp only [MM.aStart]; omega, aFits.2.2.1, by simp only [MM.aStart]; omega⟩
  · exact ⟨bFits.1, by simp only [MM.bStart]; omega, bFits.2.2.1, by simp only [MM.bStart]; omega⟩
  · exact ⟨cFits.1, by simp only [MM.cStart]; omega, cFits.2.2.1, by simp only [MM.cStart]; omega⟩

/-- The last, partial tile of a 10x9x11 product, simdized. -/
def exampleMM : MM :=
  { a := ⟨0, 10, 11⟩, b := ⟨0, 11, 9⟩, c := ⟨0, 10, 9⟩, aMem := (0, 0), bMem := (0, 0),
    cMem := (0, 0), i0 := 8, j0 := 8, k0 := 8, iUB := ⟨10, true⟩, jUB := ⟨9, true⟩,
    kUB := ⟨11, false⟩, tI := 4, tJ := 8, tK := 8, simdize := true, unroll := true, archVL := 4 }

example : (0 < exampleMM.tI ∧ 0 < exampleMM.tJ ∧ 0 < exampleMM.tK) ∧
    ((exampleMM.tI : ℤ) ∣ exampleMM.i0) ∧ exampleMM.i0 < exampleMM.iUB.val ∧
    clip exampleMM.i0 exampleMM.tI exampleMM.iUB.val ≤ exampleMM.a.rows := by
  decide +kernel

/-- The reduction of several vectors at once used by the matrix-vector kernel: lane
`q` of output `g` is the sum of all lanes of input `g * VL + q`. -/
theorem C54_multi_reduction {R : Type*} [AddCommMonoid R] (inp : ℕ → ℕ → R) (e groups : ℕ) :
    (multiReduction (· + ·) (2 ^ e) (groups * 2 ^ e) inp).length = groups ∧
      ∀ g q, g < groups → q < 2 ^ e → ∃ v,
        (multiReduction (· + ·) (2 ^ e) (groups * 2 ^ e) inp)[g]? = some v ∧
        v q = ∑ u ∈ Finset.range (2 ^ e), inp (g * 2 ^ e + q) u := by
  obtain ⟨h1, h2⟩ := multiReduction_spec (M := Multiplicative R) Multiplicative.ofAdd
    (· + ·) (fun _ _ => rfl) inp e groups
  refine ⟨h1, fun g q hg hq => ?_⟩
  obtain ⟨v, hv, hvq⟩ := h2 g q hg hq
  refine ⟨v, hv, ?_⟩
  have := congrArg Multiplicative.toAdd hvq
  rw [toAdd_prod] at this
  simpa using this

/-! ### C55: MatMul -/

open Verif.Lower in
/-- Every 2D `MatMul` lowered to tiles (any tile choice of the heuristics, any
literal or dynamic dimensions, simd or not) leaves in its cleared output the
matrix product. -/
theorem C55_matmul_tiled {R : Type*} [Semiring R] (simd : Bool) (archVL : ℕ)
    (hvl : ∃ e, archVL = 2 ^ e) (I J K : IE) (A B : ℤ → R)
    (hI : 0 ≤ I.val) (hJ : 0 ≤ J.val) (hK : 0 ≤ K.val)
    (nI : I.lit = true → I.val ≠ 0) (nK : K.lit = true → K.val ≠ 0) :
    ∃ c, matmul2d simd archVL 0 0 0 I J K A B (fun _ => 0) = some c ∧
      ∀ i j, 0 ≤ i → i < I.val → 0 ≤ j → j < J.val →
        c (i * J.val + j) = ∑ k ∈ Finset.Ico 0 K.val, A (i * K.val + k) * B (k * J.val + j) := by
  obtain ⟨c, h1, h2, _⟩ := matmul2d_spec simd archVL hvl 0 0 0 I J K A B (fun _ => 0) hI hJ hK nI nK
  refine ⟨c, h1, fun i j a b d e => ?_⟩
  have := h2 i j a b d e
  simpa using this

example : (∃ e, (4 : ℕ) = 2 ^ e) ∧ (⟨5, true⟩ : IE).val ≠ 0 := ⟨⟨2, rfl⟩, by decide⟩

/-- Batched `MatMul` lowered to tiles: batched times matrix, matrix times batched,
or two operands with the same batch. -/
theorem C55_matmul_batched {R : Type*} [Semiring R] (simd : Bool) (archVL : ℕ)
    (hvl : ∃ e, archVL = 2 ^ e) (aBatched bBatched : Bool) (nb : ℕ) (I J K : IE) (A B : ℤ → R)
    (hI : 0 ≤ I.val) (hJ : 0 ≤ J.val) (hK : 0 ≤ K.val)
    (nI : I.lit = true → I.val ≠ 0) (nK : K.lit = true → K.val ≠ 0) :
    ∃ c, matmulBatched simd archVL aBatched bBatched nb I J K A B (fun _ => 0) = some c ∧
      ∀ (q : ℕ) i j, q < nb → 0 ≤ i → i < I.val → 0 ≤ j → j < J.val →
        c (q * (I.val * J.val) + i * J.val + j) = ∑ k ∈ Finset.Ico 0 K.val,
            A ((if aBatched then q * (I.val * K.val) else 0) + i * K.val + k) *
            B ((if bBatched then q * (K.val * J.val) else 0) + k * J.val + j) := by
  obtain ⟨c, h1, h2, _⟩ := matmulBatched_spec simd archVL hvl aBatched bBatched nb I J K A B
    (fun _ => 0) hI hJ hK nI nK
  refine ⟨c, h1, fun q i j hq a b d e => ?_⟩
  have := h2 q i j hq a b d e
  simpa using this

/-- A literal empty dimension gives a tile of size 0: the tiled lowering cannot be
built although the result (an empty or zero matrix) is well defined. -/
theorem C55_matmul_empty_false :
    ∃ (I J K : IE), 0 ≤ I.val ∧ 0 ≤ J.val ∧ 0 ≤ K.val ∧ J.val ≠ 0 ∧
      ∀ A B : ℤ → ℤ, matmul2d false 4 0 0 0 I J K A B (fun _ => 0) = none :=
  ⟨⟨2, true⟩, ⟨3, true⟩, ⟨0, true⟩, by decide, by decide, by decide, by decide, fun _ _ => rfl⟩

open Verif.Lower

/-- Specification (NumPy broadcasting): the part of a batch index seen by an operand
with batch dimensions `dims`. -/
def bcastIdx (batch dims : List ℤ) : List ℤ :=
  List.zipWith (fun x d => if d = 1 then 0 else x) (batch.drop (batch.length - dims.length)) dims

/-- Specification: one element of the batched matrix product. -/
def matmulElem {R : Type*} [Semiring R] (aBatch bBatch : List ℤ) (K : ℤ) (A B : Idx → R)
    (batch : List ℤ) (n m : ℤ) : R :=
  ∑ k ∈ Finset.Ico 0 K, A (bcastIdx batch aBatch ++ [n, k]) * B (bcastIdx batch bBatch ++ [k, m])

theorem bcastIdx_of_suffix {batch ds dims : List ℤ} (h : InShape batch ds)
    (hs : ds.drop (ds.length - dims.length) = dims) :
    bcastIdx batch dims = batch.drop (batch.length - dims.length) := by
  unfold bcastIdx
  have hd := h.drop (ds.length - dims.length)
  rw [hs, ← h.length] at hd
  revert hd
  generalize batch.drop (batch.length - dims.length) = xs
  intro hd
  clear hs
  induction hd with
  | nil => rfl
  | cons h1 _ ih =>
    rw [List.zipWith_cons_cons, ih]
    congr 1
    split
    · omega
    · rfl

/-- The generic lowering, when no operand broadcasts an explicit dimension of size 1:
the batch of one operand is a suffix of the batch of the other.  The full property
has no such restriction; it is false (`C55_generic_broadcast_false`). -/
theorem C55_matmul_generic_partial {R : Type*} [Semiring R] {update : Bool} {aB bB : List IE}
    {N Ka Kb M : IE} {sh : MMShape} (hK : Ka.val = Kb.val)
    (h : matmulShape update (aB ++ [N, Ka]) (bB ++ [Kb, M]) = some sh)
    (hsuf : aB.map IE.val <:+ bB.map IE.val ∨ bB.map IE.val <:+ aB.map IE.val)
    (A B init : Idx → R) :
    ∃ o ds, matmulGeneric (aB ++ [N, Ka]) (bB ++ [Kb, M]) sh A B init = some o ∧
      o.shape = ds ++ [N.val, M.val] ∧
      ∀ batch n m, InShape batch ds → (0 ≤ n ∧ n < N.val) → (0 ≤ m ∧ m < M.val) →
        o.data (batch ++ [n, m]) =
          matmulElem (aB.map IE.val) (bB.map IE.val) Ka.val A B batch n m := by
  obtain ⟨o, h1, h2, ds, h3, h4, h5, h6, h7⟩ := matmulGeneric_mm hK h hsuf A B init
  refine ⟨o, ds, h1, by rw [h2, h3], fun batch n m hb hn hm => ?_⟩
  rw [h7 batch n m hb hn hm]
  unfold matmulElem
  have e1 := bcastIdx_of_suffix (dims := aB.map IE.val) hb (by rw [List.length_map]; exact h5)
  have e2 := bcastIdx_of_suffix (dims := bB.map IE.val) hb (by rw [List.length_map]; exact h6)
  rw [e1, e2, List.length_map, List.length_map]

example : matmulShape true ([⟨7, false⟩] ++ [⟨2, true⟩, ⟨3, true⟩]) ([] ++ [⟨3, true⟩, ⟨4, true⟩]) =
    some { out := [⟨7, false⟩, ⟨2, true⟩, ⟨4, true⟩], k := ⟨3, true⟩ } := by rfl

/-- `[1, 2, 3] x [5, 3, 4]`: shape inference accepts the operands and announces
`[5, 2, 4]`, but the generic lowering indexes the first operand with the batch
index, out of its bounds. -/
theorem C55_generic_broadcast_false :
    ∃ aS bS sh, matmulShape true aS bS = some sh ∧
      sh.out.map IE.val = [5, 2, 4] ∧ aS.map IE.val = [1, 2, 3] ∧ bS.map IE.val = [5, 3, 4] ∧
      ∀ A B init : Idx → ℤ, matmulGeneric aS bS sh A B init = none := by
  refine ⟨[⟨1, true⟩, ⟨2, true⟩, ⟨3, true⟩], [⟨5, true⟩, ⟨3, true⟩, ⟨4, true⟩],
    { out := [⟨5, true⟩, ⟨2, true⟩, ⟨4, true⟩], k := ⟨3, true⟩ }, rfl, rfl, rfl, rfl, ?_⟩
  intro A B init
  refine fill_none _ _ (i := [4, 0, 0]) ?_ rfl
  show InShape [4, 0, 0] [5, 2, 4]
  decide +kernel

/-- A matrix times a vector of unknown length: recording the known reduction
dimension in the type of the vector uses axis -2 of a rank 1 shape, an
out-of-bounds access. -/
theorem C55_update_vector_false :
    matmulShape true [⟨2, true⟩, ⟨3, true⟩] [⟨3, false⟩] = none ∧
    (matmulShape true [⟨2, true⟩, ⟨3, true⟩] [⟨3, true⟩]).isSome = true ∧
    updateInputDimAt [⟨3, false⟩] 3 (-2) = none := by
  refine ⟨rfl, rfl, rfl⟩

end Verif.Props
