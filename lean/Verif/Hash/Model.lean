import Verif.Base.Fold
import Mathlib.Data.Nat.Digits.Defs

/-!
# Model of the perfect hash used by CategoryMapper

Sources: `/repo/src/Conversion/ONNXToKrnl/PerfectHash.cpp` (compile time),
`/repo/src/Runtime/OMIndexLookup.c` (run time) and
`/repo/src/Conversion/ONNXToKrnl/ML/CategoryMapper.cpp`.

`G` and `V` are arrays of `int32_t`; here functions `Nat → Int`. All writes and reads are proved
to be at positions below the size of the dictionary. The compiler and the runtime are assumed to
run on targets where `char` has the same signedness.
-/

namespace Verif.Hash

abbrev Byte := BitVec 8

/-- The FNV prime, PerfectHash.cpp 32, OMIndexLookup.c 22. -/
def prime : BitVec 32 := 0x01000193#32

/-- `Utilities::hash(hval, str)`, PerfectHash.cpp 31-40, and `hash_string`,
OMIndexLookup.c 21-32, on the bytes of the string. `hval ^= c` converts the `char` with sign
extension. -/
def hashBytes (hval : BitVec 32) (str : List Byte) : BitVec 32 :=
  str.foldl (fun h c => (h * prime) ^^^ c.signExtend 32) (if hval = 0 then prime else hval)

/-- Decimal digits of a natural number, most significant first, as ASCII bytes. -/
def decimalNat (n : Nat) : List Byte :=
  if n = 0 then [48] else (Nat.digits 10 n).reverse.map fun d => BitVec.ofNat 8 (48 + d)

/-- `std::to_string(val)` / `"%lld"`. -/
def decimal (v : Int) : List Byte :=
  if v < 0 then 45#8 :: decimalNat v.natAbs else decimalNat v.natAbs

/-- `Utilities::hash(hval, int64_t)`, PerfectHash.cpp 43-45. -/
def hashIntCompile (hval : BitVec 32) (v : Int) : BitVec 32 := hashBytes hval (decimal v)

/-- `hash_int64`, OMIndexLookup.c 35-40: `snprintf` to a 20-byte buffer keeps 19 characters. -/
def hashIntRuntime (hval : BitVec 32) (v : Int) : BitVec 32 :=
  hashBytes hval ((decimal v).take 19)

section Build

variable {κ : Type} (h : BitVec 32 → κ → BitVec 32) (size : Nat) (dict : κ → Int)

/-- `Utilities::hash(hval, key) % size` for an `int32_t hval`, also `hash_string(d, str) %
dictSize`. -/
def slot (hval : Int) (k : κ) : Nat := (h (BitVec.ofInt 32 hval) k).toNat % size

/-- Step 1, PerfectHash.cpp 131-133: buckets by the hash with initial value 0. -/
def buckets (keys : List κ) : List (List κ) :=
  (List.range size).map fun b => keys.filter fun k => slot h size 0 k = b

/-- One pass of the `while` loop with a fixed `hval`, PerfectHash.cpp 154-165: the recorded slots,
or `none` if an item falls on a used slot. -/
def tryBucket (hval : Int) (V : Nat → Int) : List κ → List Nat → Option (List Nat)
  | [], slots => some slots
  | k :: ks, slots =>
    if V (slot h size hval k) ≠ -1 ∨ slot h size hval k ∈ slots then none
    else tryBucket hval V ks (slots ++ [slot h size hval k])

/-- The `while` loop, PerfectHash.cpp 148-165: increment `hval` and restart until a pass succeeds.
`fuel` bounds the number of passes; the loop of the program finishes iff some fuel suffices. -/
def searchHval (V : Nat → Int) (bucket : List κ) : Nat → Int → Option (Int × List Nat)
  | 0, _ => none
  | fuel + 1, hval =>
    match tryBucket h size hval V bucket [] with
    | some slots => some (hval, slots)
    | none => searchHval V bucket fuel (hval + 1)

structure Tables where
  G : Nat → Int
  V : Nat → Int

/-- Initial tables, PerfectHash.cpp 113-114. -/
def Tables.init : Tables := ⟨fun _ => 0, fun _ => -1⟩

/-- Placing a bucket with several items, PerfectHash.cpp 167-169. -/
def placeBucket (t : Tables) (b0 : κ) (bucket : List κ) (hval : Int) (slots : List Nat) : Tables :=
  { G := Function.update t.G (slot h size 0 b0) hval
    V := writeAll Prod.fst (fun p => dict p.2) (slots.zip bucket) t.V }

/-- The loop over the sorted buckets, PerfectHash.cpp 142-173. Stops at the first bucket with at
most one item and returns the remaining buckets. -/
def placeLarge (fuel : Nat) : List (List κ) → Tables → Option (Tables × List (List κ))
  | [], t => some (t, [])
  | [] :: bs, t => some (t, [] :: bs)
  | [k] :: bs, t => some (t, [k] :: bs)
  | (k :: k' :: ks) :: bs, t =>
    match searchHval h size t.V (k :: k' :: ks) fuel 1 with
    | none => none
    | some (hval, slots) =>
      placeLarge fuel bs (placeBucket h size dict t k (k :: k' :: ks) hval slots)

/-- The loop over the remaining buckets, PerfectHash.cpp 185-198; `freeList` has its back first.
`pop_back` of an empty list is undefined: `none`. -/
def placeSingle : List (List κ) → List Nat → Tables → Option Tables
  | [], _, t => some t
  | [] :: _, _, t => some t
  | (_ :: _) :: _, [], _ => none
  | (k :: _) :: bs, s :: free, t =>
    placeSingle bs free
      { G := Function.update t.G (slot h size 0 k) (-(s : Int) - 1)
        V := Function.update t.V s (dict k) }

/-- The free list, PerfectHash.cpp 177-180, back first. -/
def freeList (t : Tables) : List Nat := ((List.range size).filter fun s => t.V s = -1).reverse

/-- `createPerfectHash`, PerfectHash.cpp 124-199, on the buckets `bs` in the order chosen by
`llvm::sort`. -/
def build (fuel : Nat) (bs : List (List κ)) : Option Tables :=
  match placeLarge h size dict fuel bs Tables.init with
  | none => none
  | some (t, rest) => placeSingle h size dict rest (freeList size t) t

/-- What `llvm::sort` with the comparator of PerfectHash.cpp 136-139 guarantees: a permutation,
larger buckets first. Ties come in any order. -/
def SortedBuckets (bs0 bs : List (List κ)) : Prop :=
  bs.Perm bs0 ∧ bs.Pairwise fun a b => b.length ≤ a.length

/-- `find_index_str` / `find_index_i64`, OMIndexLookup.c 48-71. A failed assertion or an
out-of-range read of `V` is `none`. -/
def findIndex (t : Tables) (k : κ) : Option Int :=
  let d := t.G (slot h size 0 k)
  let pos := if d < 0 then (-d - 1).toNat else slot h size d k
  if pos < size ∧ 0 ≤ t.V pos ∧ t.V pos < size then some (t.V pos) else none

end Build

/-- `ONNXCategoryMapperOp` lowering for an int64 input, CategoryMapper.cpp 142-164, 278-295,
337-354: look up, compare with the category at that index, and pick the mapped value or the
default. -/
def mapInt {β : Type} (size : Nat) (t : Tables) (catsInt : Int → Int) (catsStr : Int → β)
    (default : β) (x : Int) : Option β :=
  (findIndex hashIntRuntime size t x).map fun i => if x = catsInt i then catsStr i else default

/-- `strncmp(a, b, n) == 0` on NUL-free byte strings. -/
def strncmpEq (a b : List Byte) (n : Nat) : Bool := a.take n = b.take n

/-- The lowering for a string input, CategoryMapper.cpp 296-312, 355-365: the comparison is
`strncmp(input, category, strlen(category)) == 0`. -/
def mapString {β : Type} (size : Nat) (t : Tables) (catsStr : Int → List Byte)
    (catsInt : Int → β) (default : β) (x : List Byte) : Option β :=
  (findIndex hashBytes size t x).map fun i =>
    if strncmpEq x (catsStr i) (catsStr i).length then catsInt i else default

end Verif.Hash
