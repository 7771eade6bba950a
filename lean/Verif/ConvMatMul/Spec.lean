import Verif.Rewrite.OnnxArith

/-!
# Im2Col (specification)

Im2Col is an operator of the compiler: the matrix whose columns are the windows that a convolution sees. Reference
semantics; models no code.
-/

namespace Verif.ConvMatMul

open Verif.Rewrite

variable {V : Type} [Inhabited V]

/-- The input under kernel position `k` of window `o`: 0 in the padding. -/
def under (A : Alg V) (ax : List WinAx) (x : Tensor V) (n c : ℕ) (o k : List ℕ) : V :=
  match winPos ax o k with
  | some p => x.get (n :: c :: p)
  | none => A.ofInt 0

/-- For every image a matrix: its columns are the windows in row-major order; its rows are the input channels and
kernel positions in row-major order. -/
def im2colDef (A : Alg V) (ax : List WinAx) (ks : List ℕ) (x : Tensor V) : Tensor V :=
  build [x.shape.getD 0 0, (x.shape.getD 1 0 :: ks).prod, (ax.map WinAx.out).prod] fun i =>
    let ck := unrank (x.shape.getD 1 0 :: ks) (i.getD 1 0)
    under A ax x (i.getD 0 0) (ck.getD 0 0) (unrank (ax.map WinAx.out) (i.getD 2 0)) (ck.drop 1)

end Verif.ConvMatMul
