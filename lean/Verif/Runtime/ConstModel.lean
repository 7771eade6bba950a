import Verif.Base.Fold
import Mathlib.Order.Basic

/-!
# Model of external constant files

Sources: `/repo/src/Runtime/OMExternalConstant.c` (run time) and `extractConstantsToFile` in
`/repo/src/Conversion/KrnlToLLVM/ConvertKrnlToLLVM.cpp` (compile time).

The operating system is a parameter. A `read` call either fails or returns between 1 and the
requested number of bytes from the current position, or 0 at the end of the file.
-/

namespace Verif.Runtime.Const

abbrev Byte := BitVec 8

/-- One `read(fd, dst, len)` with `len > 0` at file position `pos`. `wish = none` is an error
return, `some w` asks the system to deliver about `w + 1` bytes. Every legal return value is
obtained for some `w`. -/
def readCall (file : List Byte) (pos len : Nat) (wish : Option Nat) : Option Nat :=
  wish.map fun w => min (min (w + 1) len) (file.length - pos)

/-- Bytes stored by a `read` of `n` bytes from `pos` to `dst`. -/
def storeRead (file : List Byte) (pos dst n : Nat) (mem : Nat → Byte) : Nat → Byte :=
  fun j => if dst ≤ j ∧ j < dst + n then file.getD (pos + (j - dst)) 0 else mem j

/-- State of the read loops: number of `read` calls made, file position, buffer. -/
structure Rd where
  calls : Nat
  pos : Nat
  mem : Nat → Byte

inductive Outcome where
  /-- return 0 -/
  | ok (s : Rd)
  /-- return 1 after the `call`-th read reported an error or the end of the file -/
  | failed (call : Nat)

/-- The inner loop of `mallocAndReadFile`, OMExternalConstant.c 221-243. `sched i` is the behaviour
of the i-th read call. -/
def readChunk (file : List Byte) (sched : Nat → Option Nat) (offset chunk : Nat)
    (total : Nat) (s : Rd) : Outcome :=
  if h : total < chunk then
    match readCall file s.pos (chunk - total) (sched s.calls) with
    | none => .failed s.calls
    | some 0 => .failed s.calls
    | some (n + 1) =>
      readChunk file sched offset chunk (total + (n + 1))
        { calls := s.calls + 1, pos := s.pos + (n + 1)
          mem := storeRead file s.pos (offset + total) (n + 1) s.mem }
  else .ok s
termination_by chunk - total

/-- The outer loop of `mallocAndReadFile`, OMExternalConstant.c 216-247, with chunk size
`chunkSize > 0` (1 GiB in the source). -/
def readAll (file : List Byte) (sched : Nat → Option Nat) (chunkSize : Nat) (remaining offset : Nat)
    (s : Rd) : Outcome :=
  if h : 0 < remaining ∧ 0 < chunkSize then
    let chunk := if remaining > chunkSize then chunkSize else remaining
    match readChunk file sched offset chunk 0 s with
    | .failed c => .failed c
    | .ok s' => readAll file sched chunkSize (remaining - chunk) (offset + chunk) s'
  else .ok s
termination_by remaining
decreasing_by split <;> omega

/-- `mallocAndReadFile` after a successful `posix_memalign`, OMExternalConstant.c 200-250. -/
def mallocAndReadFile (file : List Byte) (sched : Nat → Option Nat) (chunkSize size : Nat)
    (mem : Nat → Byte) : Outcome :=
  readAll file sched chunkSize size 0 { calls := 0, pos := 0, mem := mem }

/-- `CHUNK_SIZE`, OMExternalConstant.c 33. -/
def CHUNK_SIZE : Nat := 1024 * 1024 * 1024

/-- `PAGESIZE_IN_BYTES`, OMExternalConstant.c 34. -/
def PAGE : Nat := 4096

/-- Reading byte `j` of a shared file mapping: file contents, zero up to the end of the last page,
and a fault (`none`) after it. -/
def mapped (file : List Byte) (j : Nat) : Option Byte :=
  if j < file.length then file[j]?
  else if j < (file.length + PAGE - 1) / PAGE * PAGE then some 0 else none

/-- `mmapAndReadFile`, OMExternalConstant.c 262-279. `mmapOk` is the decision of the system. The
file length is not checked. -/
def mmapAndReadFile (file : List Byte) (mmapOk : Bool) : Option (Nat → Option Byte) :=
  if mmapOk then some (mapped file) else none

/-! ## Load and unload as a state machine -/

/-- Which reading function is compiled in, OMExternalConstant.c 119-123. -/
inductive Variant where
  | mmap
  | malloc
deriving DecidableEq

/-- What happens inside one call of `omLoadConstantData` that gets past the checks. -/
inductive LoadEvent where
  | openFails
  /-- `posix_memalign` or `mmap` fails -/
  | allocFails
  /-- only in the malloc variant: a read error after the allocation -/
  | readFails
  | succeeds
deriving DecidableEq

/-- The pack pointer `constAddr[0]` (none is NULL), the live blocks, the next fresh block name, the
number of files read completely, and the pointer of one constant `outputAddr[0]`. -/
structure St where
  addr : Option Nat := none
  live : Nat → Bool := fun _ => false
  next : Nat := 0
  loads : Nat := 0
  out : Option (Option Nat × Nat) := none

inductive Call where
  | load (e : LoadEvent)
  | get (offset : Nat)
  | unload
deriving DecidableEq

/-- Result of a call; `error` is a double free. -/
inductive Res where
  | ret (b : Bool) (s : St)
  | error

/-- `omLoadConstantData` with non-null arguments, positive size and matching byte order,
OMExternalConstant.c 70-145, 200-279. On a read error the buffer is freed and `constAddr[0]` keeps
its address. -/
def load (v : Variant) (e : LoadEvent) (s : St) : Res :=
  match s.addr with
  | some _ => .ret true s
  | none =>
    match e with
    | .openFails => .ret false s
    | .allocFails => .ret false s
    | .succeeds =>
      .ret true { s with addr := some s.next, live := Function.update s.live s.next true,
                         next := s.next + 1, loads := s.loads + 1 }
    | .readFails =>
      match v with
      | .mmap => .ret false s
      | .malloc => .ret false { s with addr := some s.next, next := s.next + 1 }

/-- `omUnloadConstantData`, OMExternalConstant.c 182-194. `constAddr[0]` is not cleared. -/
def unload (s : St) : Res :=
  match s.addr with
  | none => .ret false s
  | some p =>
    if s.live p then .ret true { s with live := Function.update s.live p false } else .error

/-- `omGetExternalConstantAddr`, OMExternalConstant.c 155-172: block and offset of the constant;
block `none` is the null base pointer. -/
def getAddr (offset : Nat) (s : St) : Res :=
  match s.out with
  | some _ => .ret true s
  | none => .ret true { s with out := some (s.addr, offset) }

def step (v : Variant) (s : St) : Call → Res
  | .load e => load v e s
  | .get o => getAddr o s
  | .unload => unload s

/-- Runs a history and returns the final state; `none` if a call makes an error. -/
def run (v : Variant) : List Call → St → Option St
  | [], s => some s
  | c :: cs, s =>
    match step v s c with
    | .error => none
    | .ret _ s' => run v cs s'

/-! ## Writing the file -/

/-- A constant: alignment (non-positive: none) and bytes. -/
structure Cst where
  align : Int
  data : List Byte
deriving DecidableEq

/-- Padding inserted before a constant, ConvertKrnlToLLVM.cpp 563-571. -/
def padSize (total : Nat) (align : Int) : Nat :=
  if 0 < align ∧ total % align.toNat ≠ 0 then (total / align.toNat + 1) * align.toNat - total else 0

/-- The writing loop, ConvertKrnlToLLVM.cpp 553-577: bytes written so far and the recorded offsets.
`cs` is the sorted array `globalOfInterest` read from its end. -/
def pack : List Cst → List Byte → List Byte × List Nat
  | [], file => (file, [])
  | c :: cs, file =>
    let file1 := file ++ List.replicate (padSize file.length c.align) 0
    let r := pack cs (file1 ++ c.data)
    (r.1, file1.length :: r.2)

end Verif.Runtime.Const
