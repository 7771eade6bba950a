import Verif.TensorProto.Spec
/-!
# Import of tensors: the code (C124)

Models `/repo/src/Builder/FrontendDialectHelper.cpp`, with `fromRawBytes` and `fromMemoryBuffer` of
`/repo/src/Dialect/ONNX/ElementsAttr/ElementsAttrBuilder.cpp` and the casts of
`/repo/src/Support/Arrays.hpp`.

Not modelled: tensors of strings, and Windows. `llvm_unreachable` and failing assertions are
`refused`; builds without assertions go on, with undefined behaviour.
-/
namespace Verif.TensorProto

/-- What becomes of an import. An element is none when nothing was written to it. -/
inductive Outcome where
  | elements (l : List (Option Nat))
  | refused
  /-- A write or a read outside of a buffer. -/
  | outOfBounds

/-! ## Offsets and lengths -/

/-- The value of a digit of `strtoull`. -/
def digitVal (c : Char) : Option Nat :=
  let n := c.toNat
  if 48 ≤ n ∧ n ≤ 57 then some (n - 48)
  else if 97 ≤ n ∧ n ≤ 122 then some (n - 87)
  else if 65 ≤ n ∧ n ≤ 90 then some (n - 55)
  else none

/-- The digits from the beginning of a text. -/
def scan (base : Nat) : Str → Nat → Nat
  | [], a => a
  | c :: r, a =>
    match digitVal c with
    | some d => if d < base then scan base r (a * base + d) else a
    | none => a

/-- Whether a text begins with a digit. -/
def hasDigit (base : Nat) : Str → Bool
  | [] => false
  | c :: _ => match digitVal c with
    | some d => decide (d < base)
    | none => false

/-- `parseOffsetOrLength` (FrontendDialectHelper.cpp:37-42): `strtoull` with base 0; none when the
assertion fails. White space and signs in front are not modelled. -/
def parseNumber (s : Str) : Option Nat :=
  match s with
  | '0' :: 'x' :: r => some (min (scan 16 r 0) (2 ^ 64 - 1))
  | '0' :: r => some (min (scan 8 r 0) (2 ^ 64 - 1))
  | _ => if hasDigit 10 s then some (min (scan 10 s 0) (2 ^ 64 - 1)) else none

/-- The variables of `readExternalData_LE` (FrontendDialectHelper.cpp:52-54). -/
structure Entries where
  location : Str := []
  offset : Nat := 0
  /-- None means -1, to the end. -/
  length : Option Nat := none

/-- The loop over the entries (FrontendDialectHelper.cpp:55-65). -/
def readEntries : List (Str × Str) → Entries → Option Entries
  | [], e => some e
  | (k, v) :: rest, e =>
    if k = keyLocation then readEntries rest { e with location := v }
    else if k = keyOffset then
      match parseNumber v with
      | some n => readEntries rest { e with offset := n }
      | none => none
    else if k = keyLength then
      match parseNumber v with
      | some n => readEntries rest { e with length := some n }
      | none => none
    else readEntries rest e

/-- `llvm::sys::path::is_absolute`. -/
def isAbsolute : Str → Bool
  | '/' :: _ => true
  | _ => false

/-- `llvm::sys::fs::is_symlink_file` (FrontendDialectHelper.cpp:95): the last component only. -/
def isSymlink (fs : Fs) (dir : List Str) (location : Str) : Bool :=
  let cs := components location
  (fs.links (step (follow fs.links dir cs.dropLast) (cs.getLast?.getD []))).isSome

/-- `readExternalData_LE` (FrontendDialectHelper.cpp:50-123). `slice` is
`llvm::MemoryBuffer::getFileSlice`. -/
def readExternal (slice : List Nat → Option Nat → Nat → Option (List Nat)) (fs : Fs)
    (dir : List Str) (entries : List (Str × Str)) : Option (List Nat) :=
  match readEntries entries {} with
  | none => none
  | some e =>
    if e.location.isEmpty then none
    else if isAbsolute e.location then none
    else if (components e.location).contains ['.', '.'] then none
    else if isSymlink fs dir e.location then none
    else
      match fs.files (follow fs.links dir (components e.location)) with
      | none => none
      | some (names, bytes) => if names > 1 then none else slice bytes e.length e.offset

/-! ## Values -/

/-- The number that a host reads from bytes. -/
def leValue : List Nat → Nat
  | [] => 0
  | b :: bs => b + 256 * leValue bs

/-- The number that a host reads from memory; `big` when its most significant byte is first. -/
def native (big : Bool) (bs : List Nat) : Nat := if big then leValue bs.reverse else leValue bs

/-- `llvm::sys::getSwappedBytes` and `swappedBytes` (FrontendDialectHelper.cpp:190-198). -/
def swapped (w v : Nat) : Nat := leValue (leBytes w v).reverse

/-- `shouldSwapLEBytes` (FrontendDialectHelper.cpp:185-188). -/
def shouldSwap (big : Bool) (w : Nat) : Bool := decide (w > 1) && big

/-- `castArrayRef` and `asArrayRef` (Arrays.hpp:50-59): bytes taken as elements, without the rest
of the division. -/
def castArray (big : Bool) (w : Nat) (bytes : List Nat) : List Nat :=
  (List.range (bytes.length / w)).map fun i => native big ((bytes.drop (i * w)).take w)

/-- One write of `std::transform` to a buffer of elements; none outside of it. -/
def write (buf : List (Option Nat)) (i v : Nat) : Option (List (Option Nat)) :=
  if i < buf.length then some (buf.set i (some v)) else none

/-- `std::transform` (FrontendDialectHelper.cpp:176): as many writes as the array has elements. -/
def writeAll : List Nat → Nat → List (Option Nat) → Outcome
  | [], _, buf => .elements buf
  | v :: vs, i, buf =>
    match write buf i v with
    | none => .outOfBounds
    | some buf' => writeAll vs (i + 1) buf'

/-- `createElmAttrFromArray` (FrontendDialectHelper.cpp:168-178) and `fromRawBytes`
(ElementsAttrBuilder.cpp:1208-1215): the buffer has the elements of the type and is not
initialised. -/
def fromArray (n : Nat) (array : List Nat) (f : Nat → Nat) : Outcome :=
  writeAll (array.map f) 0 (List.replicate n none)

/-- `createElmAttrFromRawBytes_LE` (FrontendDialectHelper.cpp:215-225). -/
def fromRawBytes (big : Bool) (t : Ty) (n : Nat) (bytes : List Nat) : Outcome :=
  fromArray n (castArray big t.width bytes) fun x =>
    if shouldSwap big t.width then swapped t.width x else x

/-- Reading all elements of a buffer that is used as it is (`fromMemoryBuffer`,
ElementsAttrBuilder.cpp:69-73): its size is not tested. -/
def readBuffer (big : Bool) (w n : Nat) (bytes : List Nat) : Outcome :=
  if n * w ≤ bytes.length then
    .elements ((List.range n).map fun i => some (native big ((bytes.drop (i * w)).take w)))
  else .outOfBounds

/-- `createElementsAttrFromMemoryBuffer_LE` (FrontendDialectHelper.cpp:200-213). -/
def fromMemoryBuffer (big : Bool) (t : Ty) (n : Nat) (bytes : List Nat) : Outcome :=
  if shouldSwap big t.width then fromArray n (castArray big t.width bytes) (swapped t.width)
  else readBuffer big t.width n bytes

/-- The bits of a number with a sign that is converted to `w` bytes. -/
def truncated (w : Nat) (x : Int) : Nat := (x % (256 ^ w : Int)).toNat

/-- `deserializeDatum` (FrontendDialectHelper.cpp:232-238), from the numbers of a field. -/
def deserialize (t : Ty) (x : Int) : Nat :=
  if t = .bool then (if x = 0 then 0 else 1) else truncated t.width x

/-- `createElmAttrFromProtoData` with `TransformValueToONNXData`
(FrontendDialectHelper.cpp:125-165 and 240-246). -/
def fromField (t : Ty) (n : Nat) (p : Proto) : Outcome :=
  match t with
  | .f64 => fromArray n p.doubleData id
  | .f32 => fromArray n p.floatData id
  | .i64 => writeAll (p.int64Data.map (deserialize t)) 0 (List.replicate n none)
  | .u32 | .u64 => writeAll (p.uint64Data.map (deserialize t)) 0 (List.replicate n none)
  | _ => writeAll (p.int32Data.map (deserialize t)) 0 (List.replicate n none)

/-- `createElmAttr` (FrontendDialectHelper.cpp:248-264), for a type with `n` elements. -/
def importTensor (slice : List Nat → Option Nat → Nat → Option (List Nat)) (fs : Fs)
    (dir : List Str) (big : Bool) (t : Ty) (n : Nat) (p : Proto) : Outcome :=
  match p.external with
  | some entries =>
    match readExternal slice fs dir entries with
    | some bytes => fromMemoryBuffer big t n bytes
    | none => .refused
  | none =>
    match p.rawData with
    | some bytes => fromRawBytes big t n bytes
    | none => fromField t n p

end Verif.TensorProto
