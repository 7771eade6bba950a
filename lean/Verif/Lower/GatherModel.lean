import Verif.Lower.ReduceModel
import Verif.Lower.NdLemmas

/-!
Model of the lowerings of Gather, GatherElements, GatherND, ScatterElements, ScatterND
and OneHot, with their shape inference.

Source:
* /repo/src/Conversion/ONNXToKrnl/Tensor/Gather.cpp 34-146, GatherElements.cpp 24-124,
  GatherND.cpp 26-300, ScatterElements.cpp 20-98, ScatterND.cpp 20-110, OneHot.cpp 20-120
* /repo/src/Conversion/ONNXToKrnl/ONNXToKrnlCommon.cpp 147-156
  `indicesAreNonNegativeConstants`
* /repo/src/Dialect/ONNX/ONNXOps/Tensor/Gather.cpp 27-56, GatherElements.cpp,
  GatherND.cpp 27-85, OneHot.cpp 25-66

Indices are integers; narrowing of index values is left out.  The warnings printed by
`genSafeCodeForGatherAlike` do not change the result and are left out.  The loops are
executed in row-major order; parallel execution of the gather loop is left out.
-/

namespace Verif.Lower

open Verif.Krnl (Buf)

variable {R : Type*}

/-- Negative axes count from the back (e.g. Gather.cpp 74). -/
def normAxis (rank : ℕ) (axis : ℤ) : ℕ := (if axis < 0 then axis + rank else axis).toNat

/-- The index used to access the data (Gather.cpp 121-129, GatherElements.cpp 92-102):
`mayNeg` is whether the indices may be negative, `safe` is `enableSafeCodeGen`. -/
def gatherIndex (mayNeg safe : Bool) (axisDim idx : ℤ) : ℤ :=
  let idx := if mayNeg then (if idx < 0 then idx + axisDim else idx) else idx
  if safe then
    let idx := if idx < 0 then 0 else idx
    if idx ≥ axisDim then axisDim - 1 else idx
  else idx

/-- Output shape of Gather (ONNXOps/Tensor/Gather.cpp 45-52). -/
def gatherShape (dataDims indDims : List ℤ) (axis : ℕ) : List ℤ :=
  (List.range dataDims.length).flatMap fun i => if i = axis then indDims else [dataDims.getD i 0]

/-- Access to the data (Gather.cpp 131-141). -/
def gatherAccess (dataRank indRank axis : ℕ) (index : ℤ) (out : Idx) : Idx :=
  let kStart : ℤ := (axis : ℤ) + indRank - (axis + 1)
  ((List.range axis).map fun i => out.getD i 0) ++ [index] ++
    (List.range (dataRank - (axis + 1))).map fun (k : ℕ) => out.getD (kStart + (axis + 1 + k)).toNat 0

/-- Gather. -/
def gather (data : Mem R) (ind : Mem ℤ) (axisAttr : ℤ) (mayNeg safe : Bool) (junk : Idx → R) :
    Option (Mem R) :=
  let axis := normAxis data.shape.length axisAttr
  fill ⟨gatherShape data.shape ind.shape axis, junk⟩ fun o =>
    (ind.load ((List.range ind.shape.length).map fun j => o.getD (axis + j) 0)).bind fun idx =>
      data.load (gatherAccess data.shape.length ind.shape.length axis
        (gatherIndex mayNeg safe (data.shape.getD axis 0) idx) o)

/-- GatherElements (lines 76-117); the output has the shape of the indices. -/
def gatherElements (data : Mem R) (ind : Mem ℤ) (axisAttr : ℤ) (mayNeg safe : Bool) (junk : Idx → R) :
    Option (Mem R) :=
  let axis := normAxis data.shape.length axisAttr
  fill ⟨ind.shape, junk⟩ fun o =>
    (ind.load o).bind fun idx =>
      data.load ((List.range data.shape.length).map fun i =>
        if i = axis then gatherIndex mayNeg safe (data.shape.getD axis 0) idx else o.getD i 0)

/-- `memref.reinterpret_cast` of a contiguous buffer to other dimensions. -/
def reinterp {α : Type*} (dims : List ℤ) (m : Mem α) : Mem α := ofFlat dims m.flat

/-- A load from a reinterpreted buffer is checked against the original size as well. -/
def loadReinterp {α : Type*} (dims : List ℤ) (m : Mem α) (i : Idx) : Option α :=
  if InShape i dims ∧ 0 ≤ lin dims i ∧ lin dims i < numel m.shape then some ((reinterp dims m).data i)
  else none

/-- Output shape of GatherND (ONNXOps/Tensor/GatherND.cpp 58-77), `L` is the last
dimension of the indices. -/
def gatherNDShape (dataDims indDims : List ℤ) (b L : ℕ) : List ℤ :=
  indDims.take b ++ (indDims.drop b).take (indDims.length - 1 - b) ++
    (if L < dataDims.length - b then dataDims.drop (b + L) else [])

/-- The loads of the index tuple (GatherND.cpp 166-185). -/
def gatherNDIndices (ind : Mem ℤ) (nd : List ℤ) (L : ℕ) (ij : Idx) : Option Idx :=
  (List.range L).mapM fun (k : ℕ) => loadReinterp nd ind (ij ++ [(k : ℤ)])

/-- GatherND (lines 80-285): values are appended to a flat buffer. -/
def gatherND (data : Mem R) (ind : Mem ℤ) (b : ℕ) (junk : ℤ → R) : Option (Mem R) :=
  let L := (ind.shape.getD (ind.shape.length - 1) 0).toNat
  let BDS := numel (ind.shape.take b)
  let IDS := numel ((ind.shape.drop b).take (ind.shape.length - 1 - b))
  let newInd := [BDS, IDS, (L : ℤ)]
  let newData := BDS :: data.shape.drop b
  let outDims := gatherNDShape data.shape ind.shape b L
  (iterate [BDS, IDS] (fun ij st =>
    (gatherNDIndices ind newInd L ij).bind fun idx =>
      let acc := ij.take 1 ++ idx
      if L = data.shape.length - b then (loadReinterp newData data acc).bind fun v => push st v
      else iterate (data.shape.drop (b + L)) (fun inner st =>
        (loadReinterp newData data (acc ++ inner)).bind fun v => push st v) st)
    ((⟨numel outDims, junk⟩ : Buf R), (0 : ℤ))).map fun st => ofFlat outDims st.1

/-- The access to the output of ScatterElements (ScatterElements.cpp 70-88). -/
def scatterElemAccess (rank axis : ℕ) (mayNeg : Bool) (axisDim idx : ℤ) (i : Idx) : Idx :=
  (List.range rank).map fun k =>
    if k = axis then (if mayNeg then (if idx < 0 then idx + axisDim else idx) else idx) else i.getD k 0

/-- ScatterElements (lines 56-92): copy, then one store for each update.  The attribute
`reduction` is not read. -/
def scatterElements (data : Mem R) (ind : Mem ℤ) (upd : Mem R) (axisAttr : ℤ) (mayNeg : Bool) :
    Option (Mem R) :=
  let axis := normAxis data.shape.length axisAttr
  (idxs upd.shape).foldlM (fun o i =>
    ((upd.load i).bind fun u => (ind.load i).map fun idx =>
      (scatterElemAccess data.shape.length axis mayNeg (data.shape.getD axis 0) idx i, u)).bind
        fun p => Mem.store o p.1 p.2) data

/-- One index of the output of ScatterND (ScatterND.cpp 84-99). -/
def scatterNDIndex (ind : Mem ℤ) (loopInd : Idx) (i : ℕ) : Option ℤ :=
  if i < ind.shape.length - 1 then ind.load (loopInd.take (ind.shape.length - 1) ++ [(i : ℤ)])
  else some (loopInd.getD (min i (loopInd.length - 1)) 0)

/-- ScatterND (lines 55-106).  The attribute `reduction` is not read. -/
def scatterND (data : Mem R) (ind : Mem ℤ) (upd : Mem R) : Option (Mem R) :=
  (idxs upd.shape).foldlM (fun o i =>
    (((List.range data.shape.length).mapM (scatterNDIndex ind i)).bind fun acc =>
      (upd.load i).map fun u => (acc, u)).bind fun p => Mem.store o p.1 p.2) data

/-- Output shape of OneHot (ONNXOps/Tensor/OneHot.cpp 50-61). -/
def oneHotShape (indDims : List ℤ) (axis : ℕ) (depth : ℤ) : List ℤ :=
  (List.range (indDims.length + 1)).map fun i =>
    if i = axis then depth else if i < axis then indDims.getD i 0 else indDims.getD (i - 1) 0

/-- The position of the "on" value, or -1 (OneHot.cpp 66-82). -/
def oneHotOn (depth input : ℤ) : ℤ :=
  let inputIndex := if input < 0 then input + depth else input
  if inputIndex < 0 ∨ inputIndex ≥ depth then -1 else inputIndex

/-- The access to the output (OneHot.cpp 93-103). -/
def oneHotAccess (indRank axis : ℕ) (d : ℤ) (i : Idx) : Idx :=
  (List.range (indRank + 1)).map fun k =>
    if k = axis then d else i.getD (k - (if axis < k then 1 else 0)) 0

/-- OneHot (lines 46-108); `values` holds the off and the on value. -/
def oneHot (ind : Mem ℤ) (depth : ℤ) (values : Mem R) (axisAttr : ℤ) (junk : Idx → R) :
    Option (Mem R) :=
  let axis := (if axisAttr < 0 then axisAttr + (ind.shape.length + 1) else axisAttr).toNat
  (values.load [0]).bind fun off => (values.load [1]).bind fun on =>
    iterate ind.shape (fun i o =>
      (ind.load i).bind fun input =>
        (upto depth).foldlM (fun o d =>
          Mem.store o (oneHotAccess ind.shape.length axis d i)
            (if d = oneHotOn depth input then on else off)) o)
      ⟨oneHotShape ind.shape axis depth, junk⟩

end Verif.Lower
