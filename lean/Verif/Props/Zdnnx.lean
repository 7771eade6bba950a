import Verif.Zdnnx.Bounds

/-!
# C103: operations that the NNPA runtime splits into tiles

The runtime cuts tensors that are too large for the accelerator, or that several accelerators can
share, into tiles.  Whatever the sizes, the limits and the number of threads, the result must be
what the operation would give on the whole tensor.  `Verif/Zdnnx/Spec.lean` says what that is,
without mentioning tiles.  `own` are the earlier contents of the buffers of the tiles.
-/

namespace Verif.Props
open Verif.Zdnnx

/-! ### Operations of the accelerator, for the examples -/

/-- An elementwise operation on a whole tensor. -/
def zUnary {α : Type} (f : α → α) : Unary α := fun s x out =>
  some fun k => if k < cells s then f (x k) else out k

theorem zUnary_op {α : Type} (f : α → α) : UnaryOp f (zUnary f) := by
  intro s x out out' _ h
  simp only [zUnary, Option.some.injEq] at h
  subst h
  refine ⟨fun i hi => ?_, fun a ha => ?_⟩
  · simp only [elem, unaryVal, if_pos (addr_inside_lt hi)]
  · simp only [if_neg (not_lt.2 ha)]

/-- An elementwise operation with two inputs on whole tensors. -/
def zBinary {α : Type} (f : α → α → α) : Binary α := fun s x y out =>
  some fun k => if k < cells s then f (x k) (y k) else out k

theorem zBinary_op {α : Type} (f : α → α → α) : BinaryOp f (zBinary f) := by
  intro s x y out out' _ h
  simp only [zBinary, Option.some.injEq] at h
  subst h
  refine ⟨fun i hi => ?_, fun a ha => ?_⟩
  · simp only [elem, binaryVal, if_pos (addr_inside_lt hi)]
  · simp only [if_neg (not_lt.2 ha)]

/-- An operation on rows on a whole tensor. -/
def zRow {α : Type} (R : List α → ℕ → α) : Unary α := fun s x out =>
  some fun k => if k < cells s then rowVal R s x (cellIdx s k) else out k

theorem zRow_op {α : Type} (R : List α → ℕ → α) : RowOp R (zRow R) := by
  intro s x out out' _ h
  simp only [zRow, Option.some.injEq] at h
  subst h
  refine ⟨fun i hi => ?_, fun a ha => ?_⟩
  · simp only [elem, if_pos (addr_inside_lt hi), cellIdx_addr (padded_of_inside hi)]
  · simp only [if_neg (not_lt.2 ha)]

/-- A product of whole matrices that refuses operands that do not fit. -/
def zMatMul {α : Type} [CommSemiring α] (ta tb : Bool) : MatMul α :=
  fun za zb zc zy a b c out =>
    if MatMulShapes ta tb za.shape zb.shape zc.shape zy.shape then
      some fun k => if k < cells zy.shape then
        matmulVal ta tb za.shape zb.shape zc.shape a b c (cellIdx zy.shape k) else out k
    else none

theorem zMatMul_op {α : Type} [CommSemiring α] (ta tb : Bool)
    (ok : ZTensor → ZTensor → ZTensor → ZTensor → Prop) :
    MatMulOp ZTensor.shape ok ta tb (zMatMul (α := α) ta tb) := by
  intro za zb zc zy a b c out out' _ hs h
  unfold zMatMul at h
  rw [if_pos hs] at h
  simp only [Option.some.injEq] at h
  subst h
  refine ⟨fun i hi => ?_, fun a ha => ?_⟩
  · simp only [elem, if_pos (addr_inside_lt hi), cellIdx_addr (padded_of_inside hi)]
  · simp only [if_neg (not_lt.2 ha)]

/-! ### The sequential operations -/

/-- A unary operation gives every element its value and writes nothing outside of the tensor, for
every tensor, every choice of limits and every earlier content of the tiles.  This includes the
tiles that get a wrong shape (`C103_tile_shape_false`). -/
theorem C103_unary {α : Type} {f : α → α} {op : Unary α} (hop : UnaryOp f op) (lim : Limits)
    {z : ZTensor} (hz : Plain z) (ownX ownY : Quad → Buf α) (x out out' : Buf α)
    (h : seqUnary lim op z ownX ownY x out = some out') :
    Computed z.shape (unaryVal f z.shape x) out out' :=
  seqUnary_sound hop hz.pos hz.fits h

/-- If the accelerator never fails, neither does the operation on a split tensor. -/
theorem C103_unary_succeeds {α : Type} {op : Unary α} {lim : Limits} (hl : 0 < lim.size)
    (hop : ∀ s x out, Positive s → ∃ out', op s x out = some out') {z : ZTensor} (hz : Plain z)
    (ownX ownY : Quad → Buf α) (x out : Buf α) :
    ∃ out', seqUnary lim op z ownX ownY x out = some out' :=
  seqUnary_total hl hop hz.pos hz.fits ownX ownY x out

/-- The same for a binary operation. -/
theorem C103_binary {α : Type} {f : α → α → α} {op : Binary α} (hop : BinaryOp f op) (lim : Limits)
    {z : ZTensor} (hz : Plain z) (ownA ownB ownY : Quad → Buf α) (a b out out' : Buf α)
    (h : seqBinary lim op z ownA ownB ownY a b out = some out') :
    Computed z.shape (binaryVal f z.shape a b) out out' :=
  seqBinary_sound hop hz.pos hz.fits h

/-- If the accelerator never fails, neither does the binary operation on split tensors. -/
theorem C103_binary_succeeds {α : Type} {op : Binary α} {lim : Limits} (hl : 0 < lim.size)
    (hop : ∀ s a b out, Positive s → ∃ out', op s a b out = some out') {z : ZTensor} (hz : Plain z)
    (ownA ownB ownY : Quad → Buf α) (a b out : Buf α) :
    ∃ out', seqBinary lim op z ownA ownB ownY a b out = some out' :=
  seqBinary_total hl hop hz.pos hz.fits ownA ownB ownY a b out

/-- Softmax, or any other operation on the rows along `e1`, is applied to whole rows. -/
theorem C103_softmax {α : Type} {R : List α → ℕ → α} {op : Unary α} (hop : RowOp R op)
    (lim : Limits) {z : ZTensor} (hz : Plain z) (ownX ownY : Quad → Buf α) (x out out' : Buf α)
    (h : seqSoftmax lim op z ownX ownY x out = some out') :
    Computed z.shape (rowVal R z.shape x) out out' :=
  seqSoftmax_sound hop hz.pos hz.fits h

/-- The matrix product, unstacked, stacked or with one right matrix for all stacks, and with any
transposition. -/
theorem C103_matmul {α : Type} [CommSemiring α] {ta tb : Bool} {op : MatMul α}
    (hop : MatMulOp ZTensor.shape MMOk ta tb op) (lim : Limits) {g : MMArgs α}
    (hg : MMOk g.za g.zb g.zc g.zy)
    (hs : MatMulShapes ta tb g.za.shape g.zb.shape g.zc.shape g.zy.shape) (w : MMOwn α)
    (out out' : Buf α) (h : seqMatMul lim ta tb op g w out = some out') :
    Computed g.zy.shape (matmulVal ta tb g.za.shape g.zb.shape g.zc.shape g.a g.b g.c) out out' :=
  seqMatMul_sound hop hg hs h

/-- A tensor for the examples. -/
def zEx (s : Quad) : ZTensor := ⟨s, .d4, .dlfloat16⟩

theorem zEx_plain {s : Quad} (h : Positive s) : Plain (zEx s) := ⟨h, rfl, rfl, by simp [zEx]⟩

/-- Limits of 64 in every dimension and of 4096 elements. -/
def limEx : Limits := ⟨⟨64, 64, 64, 64⟩, 4096⟩

example : (prepareSplit (zEx ⟨2, 3, 70, 130⟩)
      ((selectTileSizes limEx includeAll ⟨2, 3, 70, 130⟩ noSizes).getD noSizes)).numTiles =
    ⟨2, 3, 2, 3⟩ := by decide +kernel

example : (seqUnary limEx (zUnary (· + 1)) (zEx ⟨2, 3, 70, 130⟩) (fun _ _ => 0) (fun _ _ => 0)
    (fun k => k) (fun _ => (0 : ℕ))).isSome = true := by decide +kernel

example (out' : Buf ℕ) (h : seqUnary limEx (zUnary (· + 1)) (zEx ⟨2, 3, 70, 130⟩)
    (fun _ _ => 0) (fun _ _ => 0) (fun k => k) (fun _ => (0 : ℕ)) = some out') :
    Computed ⟨2, 3, 70, 130⟩ (unaryVal (· + 1) ⟨2, 3, 70, 130⟩ (fun k => k)) (fun _ => 0) out' :=
  C103_unary (zUnary_op _) limEx (zEx_plain (by decide)) _ _ _ _ _ h

example (out' : Buf ℕ) (h : seqBinary limEx (zBinary (· * ·)) (zEx ⟨2, 3, 70, 130⟩)
    (fun _ _ => 0) (fun _ _ => 0) (fun _ _ => 0) (fun k => k) (fun k => k + 1)
    (fun _ => (0 : ℕ)) = some out') :
    Computed ⟨2, 3, 70, 130⟩
      (binaryVal (· * ·) ⟨2, 3, 70, 130⟩ (fun k => k) (fun k => k + 1)) (fun _ => 0) out' :=
  C103_binary (zBinary_op _) limEx (zEx_plain (by decide)) _ _ _ _ _ _ _ h

example : ∃ out', seqBinary limEx (zBinary (· * ·)) (zEx ⟨2, 3, 70, 130⟩)
    (fun _ _ => 0) (fun _ _ => 0) (fun _ _ => 0) (fun k => k) (fun k => k + 1)
    (fun _ => (0 : ℕ)) = some out' :=
  C103_binary_succeeds (by decide) (fun _ _ _ _ _ => ⟨_, rfl⟩) (zEx_plain (by decide)) _ _ _ _ _ _

example : ∃ out', seqUnary limEx (zUnary (· + 1)) (zEx ⟨2, 3, 70, 130⟩)
    (fun _ _ => 0) (fun _ _ => 0) (fun k => k) (fun _ => (0 : ℕ)) = some out' :=
  C103_unary_succeeds (by decide) (fun _ _ _ _ => ⟨_, rfl⟩) (zEx_plain (by decide)) _ _ _ _

example (out' : Buf ℕ) (h : seqSoftmax limEx (zRow fun r k => r.sum + k) (zEx ⟨2, 3, 70, 130⟩)
    (fun _ _ => 0) (fun _ _ => 0) (fun k => k) (fun _ => (0 : ℕ)) = some out') :
    Computed ⟨2, 3, 70, 130⟩
      (rowVal (fun r k => r.sum + k) ⟨2, 3, 70, 130⟩ (fun k => k)) (fun _ => 0) out' :=
  C103_softmax (zRow_op _) limEx (zEx_plain (by decide)) _ _ _ _ _ h

example : (seqSoftmax limEx (zRow fun r k => r.sum + k) (zEx ⟨2, 3, 70, 130⟩)
    (fun _ _ => 0) (fun _ _ => 0) (fun k => k) (fun _ => (0 : ℕ))).isSome = true := by
  decide +kernel

/-- Operands of a stacked product with the right matrix transposed, of which the left one is cut. -/
def mmEx : MMArgs ℕ :=
  ⟨⟨⟨2, 1, 70, 3⟩, .d3s, .dlfloat16⟩, ⟨⟨2, 1, 5, 3⟩, .d3s, .dlfloat16⟩,
   ⟨⟨2, 1, 1, 5⟩, .d2s, .dlfloat16⟩, ⟨⟨2, 1, 70, 5⟩, .d3s, .dlfloat16⟩,
   fun k => k, fun k => k + 1, fun k => k + 2⟩

def mmOwnEx : MMOwn ℕ := ⟨fun _ _ => 0, fun _ _ => 0, fun _ _ => 0, fun _ _ => 0⟩

theorem mmEx_ok : MMOk mmEx.za mmEx.zb mmEx.zc mmEx.zy :=
  ⟨⟨by decide, by decide, rfl, by decide⟩, ⟨by decide, by decide, rfl, by decide⟩,
   ⟨by decide, by decide, rfl, by decide⟩, ⟨by decide, by decide, rfl, by decide⟩, by decide, rfl,
   fun _ => ⟨rfl, rfl⟩⟩

example : MatMulShapes false true mmEx.za.shape mmEx.zb.shape mmEx.zc.shape mmEx.zy.shape ∧
    (seqMatMulSizes limEx false true mmEx).map (fun ts => (mmEx.splits ts).bounds) =
      some ⟨2, 1, 2, 1⟩ ∧
    (seqMatMul limEx false true (zMatMul false true) mmEx mmOwnEx (fun _ => 0)).isSome = true := by
  refine ⟨by decide, by decide +kernel, by decide +kernel⟩

example (out' : Buf ℕ)
    (h : seqMatMul limEx false true (zMatMul false true) mmEx mmOwnEx (fun _ => 0) = some out') :
    Computed ⟨2, 1, 70, 5⟩
      (matmulVal false true mmEx.za.shape mmEx.zb.shape mmEx.zc.shape mmEx.a mmEx.b mmEx.c)
      (fun _ => 0) out' :=
  C103_matmul (zMatMul_op _ _ _) limEx mmEx_ok (by decide) mmOwnEx _ _ h

/-- With a left matrix for all stacks and a stack of right matrices, a product that has to be cut
computes the first matrix of the stack only, although it reports success. -/
theorem C103_matmul_bcast_false : ∃ (g : MMArgs ℕ) (w : MMOwn ℕ) (lim : Limits) (out out' : Buf ℕ),
    Plain g.za ∧ Plain g.zb ∧ Plain g.zc ∧ Plain g.zy ∧
    g.za.layout = .d2 ∧ g.zb.layout = .d3s ∧ g.zc.layout = .d2s ∧ g.zy.layout = .d3s ∧
    MatMulShapes false false g.za.shape g.zb.shape g.zc.shape g.zy.shape ∧
    seqMatMul lim false false (zMatMul false false) g w out = some out' ∧
    ¬ Computed g.zy.shape (matmulVal false false g.za.shape g.zb.shape g.zc.shape g.a g.b g.c)
      out out' := by
  refine ⟨⟨⟨⟨1, 1, 1, 1⟩, .d2, .dlfloat16⟩, ⟨⟨2, 1, 1, 65⟩, .d3s, .dlfloat16⟩,
    ⟨⟨2, 1, 1, 65⟩, .d2s, .dlfloat16⟩, ⟨⟨2, 1, 1, 65⟩, .d3s, .dlfloat16⟩,
    fun _ => 1, fun _ => 1, fun _ => 0⟩, mmOwnEx, limEx, fun _ => 0, _,
    ⟨by decide, by decide, rfl, by decide⟩, ⟨by decide, by decide, rfl, by decide⟩,
    ⟨by decide, by decide, rfl, by decide⟩, ⟨by decide, by decide, rfl, by decide⟩,
    rfl, rfl, rfl, rfl, by decide, rfl, ?_⟩
  intro hc
  have := hc.1 ⟨1, 0, 0, 0⟩ (by decide)
  revert this
  decide +kernel

/-! ### Limits -/

/-- The accelerator never sees a tensor with a dimension beyond its limits: an operation that
behaves differently on such tensors, for instance by refusing them, gives the same result. -/
theorem C103_limits_unary {α : Type} {lim : Limits} (hd : Positive lim.dim)
    (h2 : lim.dim.e2 % 32 = 0) (h1 : lim.dim.e1 % 64 = 0) (hm : 0 < lim.size) {op op' : Unary α}
    (he : ∀ s, Below s lim.dim → op s = op' s) {z : ZTensor} (hz : Plain z)
    (ownX ownY : Quad → Buf α) (x out : Buf α) :
    seqUnary lim op z ownX ownY x out = seqUnary lim op' z ownX ownY x out :=
  seqUnary_within hd h2 h1 hm he hz ownX ownY x out

/-- The same for a binary operation. -/
theorem C103_limits_binary {α : Type} {lim : Limits} (hd : Positive lim.dim)
    (h2 : lim.dim.e2 % 32 = 0) (h1 : lim.dim.e1 % 64 = 0) (hm : 0 < lim.size) {op op' : Binary α}
    (he : ∀ s, Below s lim.dim → op s = op' s) {z : ZTensor} (hz : Plain z)
    (ownA ownB ownY : Quad → Buf α) (a b out : Buf α) :
    seqBinary lim op z ownA ownB ownY a b out = seqBinary lim op' z ownA ownB ownY a b out :=
  seqBinary_within hd h2 h1 hm he hz ownA ownB ownY a b out

/-- An operation that refuses what is beyond the limits of the dimensions. -/
def zGuarded {α : Type} (lim : Limits) (op : Unary α) : Unary α := fun s x out =>
  if Below s lim.dim then op s x out else none

example : seqUnary limEx (zUnary (· + 1)) (zEx ⟨2, 3, 70, 130⟩) (fun _ _ => 0) (fun _ _ => 0)
      (fun k => k) (fun _ => (0 : ℕ)) =
    seqUnary limEx (zGuarded limEx (zUnary (· + 1))) (zEx ⟨2, 3, 70, 130⟩) (fun _ _ => 0)
      (fun _ _ => 0) (fun k => k) (fun _ => (0 : ℕ)) :=
  C103_limits_unary (by decide) (by decide) (by decide) (by decide)
    (fun s hs => by funext x out; simp only [zGuarded, if_pos hs]) (zEx_plain (by decide)) _ _ _ _

/-- An operation that refuses tensors with too many elements. -/
def zSized {α : Type} (lim : Limits) (op : Unary α) : Unary α := fun s x out =>
  if s.e4 * s.e3 * s.e2 * s.e1 ≤ lim.size then op s x out else none

/-- The limit on the number of elements is not kept: the sizes are rounded up to whole sticks after
they have been chosen. -/
theorem C103_size_false : ∃ (lim : Limits) (z : ZTensor), Positive lim.dim ∧
    lim.dim.e2 % 32 = 0 ∧ lim.dim.e1 % 64 = 0 ∧ 0 < lim.size ∧ Plain z ∧
    ∀ (f : ℕ → ℕ) (ownX ownY : Quad → Buf ℕ) (x out : Buf ℕ),
      seqUnary lim (zSized lim (zUnary f)) z ownX ownY x out = none := by
  refine ⟨⟨⟨32768, 32768, 32768, 32768⟩, 2000⟩, zEx ⟨1, 1, 40, 100⟩, by decide, by decide,
    by decide, by decide, zEx_plain (by decide), ?_⟩
  intro f ownX ownY x out
  have e : selectTileSizes ⟨⟨32768, 32768, 32768, 32768⟩, 2000⟩ includeAll ⟨1, 1, 40, 100⟩ noSizes =
      some ⟨1, 1, 40, 50⟩ := by decide +kernel
  unfold seqUnary
  rw [show (zEx ⟨1, 1, 40, 100⟩).shape = ⟨1, 1, 40, 100⟩ from rfl, e]
  rfl

/-- A limit of zero elements, which `ZDNNX_MAX_TILE_SIZE_IN_MB=0` sets, makes the choice of the sizes
divide by zero. -/
theorem C103_zero_limit_false : ∃ z : ZTensor, Plain z ∧
    ∀ (op : Unary ℕ) (ownX ownY : Quad → Buf ℕ) (x out : Buf ℕ),
      seqUnary ⟨⟨32768, 32768, 32768, 32768⟩, 0⟩ op z ownX ownY x out = none := by
  refine ⟨zEx ⟨1, 1, 1, 2⟩, zEx_plain (by decide), ?_⟩
  intro op ownX ownY x out
  have e : selectTileSizes ⟨⟨32768, 32768, 32768, 32768⟩, 0⟩ includeAll ⟨1, 1, 1, 2⟩ noSizes =
      none := by decide +kernel
  unfold seqUnary
  rw [show (zEx ⟨1, 1, 1, 2⟩).shape = ⟨1, 1, 1, 2⟩ from rfl, e]
  rfl

/-- The test for tiles of the full size is the wrong way round for the last tile along a dimension,
so there are tiles whose shape is larger than the part of the tensor they stand for. -/
theorem C103_tile_shape_false : ∃ (z : ZTensor) (ts ie : Quad), Plain z ∧
    Inside ie (prepareSplit z ts).numTiles ∧
    z.shape.e1 - ie.e1 * (prepareSplit z ts).tileShape.e1 <
      (tileDescAt (prepareSplit z ts) ie).e1 := by
  refine ⟨zEx ⟨2, 2, 40, 130⟩, ⟨1, 1, 32, 64⟩, ⟨0, 0, 1, 2⟩, zEx_plain (by decide), ?_, ?_⟩
  · decide +kernel
  · decide +kernel

/-! ### The parallel operations -/

/-- A parallel unary operation, for every number of threads and every order of the tiles, if the
accelerator does not fail. -/
theorem C103_omp_unary_partial {α : Type} {f : α → α} {op : Unary α} (hop : UnaryOp f op)
    (htot : ∀ s x out, Positive s → ∃ out', op s x out = some out') {lim : Limits}
    (hl : 0 < lim.size) (threads : ℕ) {z : ZTensor} (hz : Plain z) (ownX ownY : Quad → Buf α)
    {order : List Quad} (hord : order.Perm (allTiles (ompSplit lim threads z).numTiles))
    (x out out' : Buf α) (h : ompUnary lim threads op z ownX ownY order x out = some out') :
    Computed z.shape (unaryVal f z.shape x) out out' :=
  ompUnary_sound hop htot hl hz.pos hz.fits hord h

/-- The same for a binary operation. -/
theorem C103_omp_binary_partial {α : Type} {f : α → α → α} {op : Binary α} (hop : BinaryOp f op)
    (htot : ∀ s a b out, Positive s → ∃ out', op s a b out = some out') {lim : Limits}
    (hl : 0 < lim.size) (threads : ℕ) {z : ZTensor} (hz : Plain z)
    (ownA ownB ownY : Quad → Buf α) {order : List Quad}
    (hord : order.Perm (allTiles (ompSplit lim threads z).numTiles)) (a b out out' : Buf α)
    (h : ompBinary lim threads op z ownA ownB ownY order a b out = some out') :
    Computed z.shape (binaryVal f z.shape a b) out out' :=
  ompBinary_sound hop htot hl hz.pos hz.fits hord h

/-- The parallel softmax, for every number of threads and every order of the tiles. -/
theorem C103_omp_softmax {α : Type} {R : List α → ℕ → α} {op : Unary α} (hop : RowOp R op)
    (lim : Limits) (threads : ℕ) {z : ZTensor} (hz : Plain z) (ownX ownY : Quad → Buf α)
    {order : List Quad}
    (hord : order.Perm (allTiles { (ompSoftmaxSplit lim threads z).numTiles with e3 := 1, e1 := 1 }))
    (x out out' : Buf α) (h : ompSoftmax lim threads op z ownX ownY order x out = some out') :
    Computed z.shape (rowVal R z.shape x) out out' :=
  ompSoftmax_sound hop hz.pos hz.fits hord h

/-- The parallel matrix product without transposition: every tile is given to the sequential
product, which may cut it again. -/
theorem C103_omp_matmul_partial {α : Type} [CommSemiring α] {op : MatMul α}
    (hop : MatMulOp ZTensor.shape MMOk false false op) (lim : Limits) (threads : ℕ) {g : MMArgs α}
    (hg : MMOk g.za g.zb g.zc g.zy)
    (hs : MatMulShapes false false g.za.shape g.zb.shape g.zc.shape g.zy.shape) (w w' : MMOwn α)
    {order : List Quad}
    (hord : ∀ ts, ompMatMulSizes lim threads g = some ts →
      order.Perm (allTiles (g.splits ts).bounds)) (out out' : Buf α)
    (h : ompMatMul lim threads (seqMatMulOn lim false false op w') g w order out = some out') :
    Computed g.zy.shape (matmulVal false false g.za.shape g.zb.shape g.zc.shape g.a g.b g.c)
      out out' :=
  ompMatMul_sound (seqMatMulOn_op hop lim w') hg hs hord h

/-- The limits of the accelerator, with tensors of at most 4 GB. -/
def limNNPA : Limits := ⟨⟨32768, 32768, 32768, 32768⟩, 2147483648⟩

/-- A tensor that is cut for two threads. -/
def bigEx : ZTensor := zEx ⟨400, 1, 33, 65⟩

example : (ompSplit limNNPA 2 bigEx).numTiles = ⟨2, 1, 1, 1⟩ := by decide +kernel

example (out' : Buf ℕ) (h : ompUnary limNNPA 2 (zUnary (· + 1)) bigEx (fun _ _ => 0)
    (fun _ _ => 0) [⟨1, 0, 0, 0⟩, ⟨0, 0, 0, 0⟩] (fun k => k) (fun _ => (0 : ℕ)) = some out') :
    Computed ⟨400, 1, 33, 65⟩ (unaryVal (· + 1) ⟨400, 1, 33, 65⟩ (fun k => k)) (fun _ => 0) out' :=
  C103_omp_unary_partial (zUnary_op _) (fun _ _ _ _ => ⟨_, rfl⟩) (by decide) 2
    (zEx_plain (by decide)) _ _ (by decide +kernel) _ _ _ h

example (out' : Buf ℕ) (h : ompBinary limNNPA 2 (zBinary (· * ·)) bigEx (fun _ _ => 0)
    (fun _ _ => 0) (fun _ _ => 0) [⟨1, 0, 0, 0⟩, ⟨0, 0, 0, 0⟩] (fun k => k) (fun k => k)
    (fun _ => (0 : ℕ)) = some out') :
    Computed ⟨400, 1, 33, 65⟩ (binaryVal (· * ·) ⟨400, 1, 33, 65⟩ (fun k => k) (fun k => k))
      (fun _ => 0) out' :=
  C103_omp_binary_partial (zBinary_op _) (fun _ _ _ _ _ => ⟨_, rfl⟩) (by decide) 2
    (zEx_plain (by decide)) _ _ _ (by decide +kernel) _ _ _ _ h

example (out' : Buf ℕ) (h : ompSoftmax limNNPA 2 (zRow fun r k => r.sum + k) bigEx (fun _ _ => 0)
    (fun _ _ => 0) [⟨1, 0, 0, 0⟩, ⟨0, 0, 0, 0⟩] (fun k => k) (fun _ => (0 : ℕ)) = some out') :
    Computed ⟨400, 1, 33, 65⟩ (rowVal (fun r k => r.sum + k) ⟨400, 1, 33, 65⟩ (fun k => k))
      (fun _ => 0) out' :=
  C103_omp_softmax (zRow_op _) limNNPA 2 (zEx_plain (by decide)) _ _ (by decide +kernel) _ _ _ h

/-- Operands of a product whose right matrix is cut for two threads. -/
def mmOmpEx : MMArgs ℕ :=
  ⟨⟨⟨1, 1, 2, 3⟩, .d2, .dlfloat16⟩, ⟨⟨1, 1, 3, 100⟩, .d2, .dlfloat16⟩,
   ⟨⟨1, 1, 1, 100⟩, .d1, .dlfloat16⟩, ⟨⟨1, 1, 2, 100⟩, .d2, .dlfloat16⟩,
   fun k => k, fun k => k + 1, fun k => k + 2⟩

example (out' : Buf ℕ) (h : ompMatMul limNNPA 2
    (seqMatMulOn limNNPA false false (zMatMul false false) mmOwnEx) mmOmpEx mmOwnEx
    [⟨0, 0, 0, 1⟩, ⟨0, 0, 0, 0⟩] (fun _ => 0) = some out') :
    Computed ⟨1, 1, 2, 100⟩ (matmulVal false false mmOmpEx.za.shape mmOmpEx.zb.shape
      mmOmpEx.zc.shape mmOmpEx.a mmOmpEx.b mmOmpEx.c) (fun _ => 0) out' := by
  refine C103_omp_matmul_partial (zMatMul_op _ _ _) limNNPA 2 (g := mmOmpEx)
    ⟨⟨by decide, by decide, rfl, by decide⟩, ⟨by decide, by decide, rfl, by decide⟩,
     ⟨by decide, by decide, rfl, by decide⟩, ⟨by decide, by decide, rfl, by decide⟩, by decide, rfl,
     fun e => absurd e (by decide)⟩ (by decide) mmOwnEx mmOwnEx ?_ _ _ h
  intro ts hts
  have e : ompMatMulSizes limNNPA 2 mmOmpEx = some ⟨1, 0, 0, 64⟩ ∨
      ompMatMulSizes limNNPA 2 mmOmpEx = some ⟨0, 0, 0, 64⟩ := by decide +kernel
  rcases e with e | e <;> rw [e] at hts <;> simp only [Option.some.injEq] at hts <;> subst hts <;>
    decide +kernel

/-- The parallel elementwise operations do not look at the status of the accelerator: when it
fails, they report success and the result is not there. -/
theorem C103_omp_status_false : ∃ (z : ZTensor) (order : List Quad) (x out out' : Buf ℕ),
    Plain z ∧ order.Perm (allTiles (ompSplit limNNPA 2 z).numTiles) ∧
    ompUnary limNNPA 2 (fun _ _ _ => none) z (fun _ _ => 0) (fun _ _ => 0) order x out = some out' ∧
    ¬ Computed z.shape (unaryVal (· + 1) z.shape x) out out' := by
  refine ⟨bigEx, [⟨0, 0, 0, 0⟩, ⟨1, 0, 0, 0⟩], fun _ => 0, fun _ => 0, _,
    zEx_plain (by decide), by decide +kernel, rfl, ?_⟩
  intro hc
  have := hc.1 ⟨0, 0, 0, 0⟩ (by decide)
  revert this
  decide +kernel

/-- With no thread, which `OM_NUM_ZAIU_THREADS=0` sets, the number of elements per tile is a
division by zero. -/
theorem C103_zero_threads_false : ∃ z : ZTensor, Plain z ∧
    ∀ (op : Unary ℕ) (ownX ownY : Quad → Buf ℕ) (order : List Quad) (x out : Buf ℕ),
      ompUnary limNNPA 0 op z ownX ownY order x out = none := by
  refine ⟨bigEx, zEx_plain (by decide), ?_⟩
  intro op ownX ownY order x out
  unfold ompUnary
  rw [if_pos ⟨by decide +kernel, rfl⟩]

/-- The parallel product cuts the right matrix along `e1` even when it is transposed, where `e1` is
the dimension of the sum: the accelerator is then given matrices that do not fit.  On the whole
operands it would have succeeded. -/
theorem C103_omp_transpose_false : ∃ (g : MMArgs ℕ) (w : MMOwn ℕ) (out : Buf ℕ),
    MMOk g.za g.zb g.zc g.zy ∧
    MatMulShapes false true g.za.shape g.zb.shape g.zc.shape g.zy.shape ∧
    (zMatMul false true g.za g.zb g.zc g.zy g.a g.b g.c out).isSome = true ∧
    ∀ ts, ompMatMulSizes limNNPA 2 g = some ts →
      ompMatMul limNNPA 2 (seqMatMulOn limNNPA false true (zMatMul false true) w) g w
        (allTiles (g.splits ts).bounds) out = none := by
  refine ⟨⟨⟨⟨1, 1, 2, 128⟩, .d2, .dlfloat16⟩, ⟨⟨1, 1, 3, 128⟩, .d2, .dlfloat16⟩,
    ⟨⟨1, 1, 1, 3⟩, .d1, .dlfloat16⟩, ⟨⟨1, 1, 2, 3⟩, .d2, .dlfloat16⟩,
    fun _ => 1, fun _ => 1, fun _ => 0⟩, mmOwnEx, fun _ => 0,
    ⟨⟨by decide, by decide, rfl, by decide⟩, ⟨by decide, by decide, rfl, by decide⟩,
     ⟨by decide, by decide, rfl, by decide⟩, ⟨by decide, by decide, rfl, by decide⟩, by decide, rfl,
     fun e => absurd e (by decide)⟩, by decide, by decide +kernel, ?_⟩
  intro ts hts
  have e : ompMatMulSizes limNNPA 2
      (⟨⟨⟨1, 1, 2, 128⟩, .d2, .dlfloat16⟩, ⟨⟨1, 1, 3, 128⟩, .d2, .dlfloat16⟩,
        ⟨⟨1, 1, 1, 3⟩, .d1, .dlfloat16⟩, ⟨⟨1, 1, 2, 3⟩, .d2, .dlfloat16⟩,
        fun _ => 1, fun _ => 1, fun _ => 0⟩ : MMArgs ℕ) = some ⟨0, 0, 0, 64⟩ := by decide +kernel
  rw [e] at hts
  simp only [Option.some.injEq] at hts
  subst hts
  unfold ompMatMul
  rw [e]
  rfl

end Verif.Props
