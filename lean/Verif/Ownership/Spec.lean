/-!
# The memory of inputs and outputs: specification (C112)

A heap of blocks, of which `free` accepts only those in use.  What users rely on: whatever they do
with the results, in whatever order they drop them, no block is freed twice, results that they
still have are in memory in use, and after everything is dropped the heap is as it was.
-/
namespace Verif.Ownership

/-- A heap: which blocks are in use, and the number of the next one. -/
structure Heap where
  live : Nat → Bool
  next : Nat

/-- `malloc`. -/
def Heap.alloc (h : Heap) : Nat × Heap :=
  (h.next, { live := fun b => b = h.next || h.live b, next := h.next + 1 })

/-- `free`: `none` for a block that is not in use. -/
def Heap.free (h : Heap) (b : Nat) : Option Heap :=
  if h.live b then some { h with live := fun x => x ≠ b && h.live x } else none

/-- Numbers of blocks in use have been given out. -/
def Heap.Ok (h : Heap) : Prop := ∀ b, h.live b = true → b < h.next

/-- The blocks in use are those of `h0` and those of the list. -/
structure Owns (h0 h : Heap) (L : List Nat) : Prop where
  live : ∀ b, h.live b = (h0.live b || L.contains b)
  nodup : L.Nodup
  fresh : ∀ b ∈ L, h0.live b = false
  ok : h.Ok

/-- Where memory is: a block of the heap, or a constant of the library. -/
inductive Place
  | heap (b : Nat)
  | static (g : Nat)
  deriving DecidableEq

/-- A pointer: into a block, at an offset. -/
structure Ptr where
  place : Place
  off : Nat
  deriving DecidableEq

/-- Memory that may be read. -/
def Readable (h : Heap) (p : Ptr) : Prop :=
  match p.place with
  | .heap b => h.live b = true
  | .static _ => True

/-- The values a compiled function returns: an argument, a new buffer, a constant, a view of
another value, one of two values, or a value that comes from one of two blocks of code. -/
inductive Src
  | arg (i : Nat)
  | alloc (k : Nat)
  | global (g : Nat)
  | view (s : Src) (off : Nat)
  | select (c : Nat) (t f : Src)
  | join (c : Nat) (t f : Src)

/-- The pointer of a value, where argument `i` is at `args i`, new buffers are blocks from `base`
on, and `choice` decides between two values. -/
def eval (args : Nat → Ptr) (base : Nat) (choice : Nat → Bool) : Src → Ptr
  | .arg i => args i
  | .alloc k => ⟨.heap (base + k), 0⟩
  | .global g => ⟨.static g, 0⟩
  | .view s off => ⟨(eval args base choice s).place, (eval args base choice s).off + off⟩
  | .select c t f => if choice c then eval args base choice t else eval args base choice f
  | .join c t f => if choice c then eval args base choice t else eval args base choice f

/-- The buffer that a value is in, if it is a new one. -/
def newBuffer (choice : Nat → Bool) : Src → Option Nat
  | .arg _ => none
  | .alloc k => some k
  | .global _ => none
  | .view s _ => newBuffer choice s
  | .select c t f => if choice c then newBuffer choice t else newBuffer choice f
  | .join c t f => if choice c then newBuffer choice t else newBuffer choice f

/-- The argument that a value is in, if it is in one. -/
def argumentOf (choice : Nat → Bool) : Src → Option Nat
  | .arg i => some i
  | .alloc _ => none
  | .global _ => none
  | .view s _ => argumentOf choice s
  | .select c t f => if choice c then argumentOf choice t else argumentOf choice f
  | .join c t f => if choice c then argumentOf choice t else argumentOf choice f

/-- Both values of a choice are new buffers, or none is; there are no values from other blocks of
code. -/
def Src.Plain : Src → Prop
  | .arg _ => True
  | .alloc _ => True
  | .global _ => True
  | .view s _ => s.Plain
  | .select _ t f => t.Plain ∧ f.Plain ∧
      ∀ choice, (newBuffer choice t).isSome = (newBuffer choice f).isSome
  | .join _ _ _ => False

end Verif.Ownership
