import Mathlib.Data.List.Basic
import Mathlib.Data.Nat.Basic
import Mathlib.Data.List.Forall2
/-!
# Import of tensors: specification (C124)

The values of a tensor are given by their bits, as numbers below `256 ^ width`.
-/
namespace Verif.TensorProto

abbrev Str := List Char

/-- The element types of ONNX that are imported, without strings; the four types of eight bits
with a fraction are one. -/
inductive Ty where
  | bool | i8 | u8 | i16 | u16 | i32 | u32 | i64 | u64 | f32 | f64 | f16 | bf16 | f8
  deriving DecidableEq

/-- Number of bytes of an element. -/
def Ty.width : Ty → Nat
  | .bool | .i8 | .u8 | .f8 => 1
  | .i16 | .u16 | .f16 | .bf16 => 2
  | .i32 | .u32 | .f32 => 4
  | .i64 | .u64 | .f64 => 8

/-- `v` is the bits of a value of type `t`. -/
def Ty.Value (t : Ty) (v : Nat) : Prop := if t = .bool then v < 2 else v < 256 ^ t.width

/-- The bytes of a number, least significant first. -/
def leBytes : Nat → Nat → List Nat
  | 0, _ => []
  | w + 1, v => v % 256 :: leBytes w (v / 256)

/-- The bits read as a number with a sign. -/
def signed (w v : Nat) : Int := if 2 * v < 256 ^ w then v else (v : Int) - 256 ^ w

/-- The fields of a TensorProto that hold data. The numbers of `float_data` and `double_data` are
given by their bits. -/
structure Proto where
  int32Data : List Int := []
  int64Data : List Int := []
  uint64Data : List Int := []
  floatData : List Nat := []
  doubleData : List Nat := []
  rawData : Option (List Nat) := none
  /-- The entries of `external_data` when the data is external. -/
  external : Option (List (Str × Str)) := none

/-- The typed field of a proto, as prescribed in onnx.proto for each type, has these values. -/
def InField (t : Ty) (p : Proto) (vs : List Nat) : Prop :=
  match t with
  | .f32 => p.floatData = vs
  | .f64 => p.doubleData = vs
  | .i64 => p.int64Data = vs.map (signed 8)
  | .u64 => p.uint64Data = vs.map fun v : Nat => (v : Int)
  | .u32 => p.uint64Data = vs.map fun v : Nat => (v : Int)
  | .i32 => p.int32Data = vs.map (signed 4)
  | .i16 => p.int32Data = vs.map (signed 2)
  | .i8 => p.int32Data = vs.map (signed 1)
  | _ => p.int32Data = vs.map fun v : Nat => (v : Int)

/-! The keys of external data. -/

def keyLocation : Str := ['l', 'o', 'c', 'a', 't', 'i', 'o', 'n']
def keyOffset : Str := ['o', 'f', 'f', 's', 'e', 't']
def keyLength : Str := ['l', 'e', 'n', 'g', 't', 'h']

/-- Decimal numerals without zeros in front. -/
inductive Decimal : Str → Nat → Prop
  | digit (d : Nat) (hd : d < 10) : Decimal [Char.ofNat (48 + d)] d
  | more (s : Str) (n d : Nat) (hs : Decimal s n) (hn : 0 < n) (hd : d < 10) :
      Decimal (s ++ [Char.ofNat (48 + d)]) (10 * n + d)

/-- A file system: directories that are links, and files with the number of their names. -/
structure Fs where
  links : List Str → Option (List Str)
  files : List Str → Option (Nat × List Nat)

/-- The components of a path. -/
def components (s : Str) : List Str := s.splitOn '/'

/-- One step from a directory without links. -/
def step (here : List Str) (c : Str) : List Str :=
  if c = ['.', '.'] then here.dropLast
  else if c = ['.'] ∨ c = [] then here
  else here ++ [c]

/-- One step with links. -/
def stepL (links : List Str → Option (List Str)) (here : List Str) (c : Str) : List Str :=
  (links (step here c)).getD (step here c)

/-- The place that a path means when it is followed from a directory. -/
def follow (links : List Str → Option (List Str)) (here : List Str) (cs : List Str) : List Str :=
  cs.foldl (stepL links) here

/-- The last component of a path, from a directory, is not a link. -/
def LastIsNoLink (links : List Str → Option (List Str)) (here : List Str) (cs : List Str) : Prop :=
  links (step (follow links here cs.dropLast) (cs.getLast?.getD [])) = none

end Verif.TensorProto
