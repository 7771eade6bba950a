import Verif.Ownership.Lemmas
/-!
# The memory of inputs and outputs (C112)

After a run the user has results, in C++ as unique pointers to tensors, in Python as numpy arrays.
`cppDrops` and `pyDrops` drop them in any order.  A crash, such as freeing a block twice, is `none`.
-/
namespace Verif.Props
open Verif.Ownership

/-- The compiler says that an output owns its memory exactly when a run has created it.

Partial: when both values of every choice are new buffers, or none is. -/
theorem C112_shouldOwn_partial (s : Src) (h : s.Plain) (choice : Nat → Bool) :
    shouldOwn s = (newBuffer choice s).isSome :=
  shouldOwn_eq choice s h

/-- C++: whatever the order in which the outputs are dropped, nothing crashes; the data of the
outputs that are left may be read; and when none is left, all memory of the run, the inputs
included, has been freed.

Partial: the first entry point; no two outputs are the same memory; an output that is an input is
one whose memory belongs to the user. -/
theorem C112_cpp_partial (p : Prog) (choice : Nat → Bool) (hp : p.Ok choice) (h0 h : Heap)
    (ins : List Omt) (hins : ∀ t ∈ ins, GoodOwn t) (o : Owns h0 h (ins.flatMap blocks))
    (hd : (p.outputs.filterMap (newBuffer choice)).Nodup)
    (harg : ∀ s ∈ p.outputs, ∀ i, newBuffer choice s = none → argumentOf choice s = some i →
      ∃ t, ins[i]? = some t ∧ Readable h0 t.data) :
    ∃ h' ts, cppRun p choice h ins = some (h', .ok ts) ∧ ts.length = p.outputs.length ∧
      ∀ order, ∃ h'' ts', cppDrops h' ts order = some (h'', ts') ∧
        (∀ t ∈ ts', Readable h'' t.data) ∧ (ts' = [] → ∀ b, h''.live b = h0.live b) := by
  obtain ⟨h', ts, base, e, o1, g1, m⟩ := cppRun_ok p choice ins hp hins o hd
  refine ⟨h', ts, e, by simpa using congrArg List.length m, fun order => ?_⟩
  obtain ⟨h'', ts', e2, s2, o2⟩ := cppDrops_ok ts g1 o1 order
  refine ⟨h'', ts', e2, fun t ht => ?_, fun hnil b => ?_⟩
  · have hm : (t.data, t.owning) ∈ ts.map (fun t => (t.data, t.owning)) :=
      List.mem_map.mpr ⟨t, s2.subset ht, rfl⟩
    rw [m] at hm
    obtain ⟨s, hs, es⟩ := List.mem_map.mp hm
    simp only [Prod.mk.injEq] at es
    obtain ⟨es1, es2⟩ := es
    cases hn : newBuffer choice s with
    | some k =>
      have hpl := eval_new (argOf ins) base choice s hn
      rw [es1] at hpl
      unfold Readable
      rw [hpl]
      refine o2.mem_live (List.mem_flatMap.mpr ⟨t, ht, ?_⟩)
      rw [hn] at es2
      simp [blocks, ownBlocks, hpl, ← es2]
    | none =>
      rcases eval_old (argOf ins) base choice s hn with ⟨g, hg⟩ | ⟨i, hi1, hi2⟩
      · rw [es1] at hg
        unfold Readable
        rw [hg]; trivial
      · obtain ⟨u, hu, hr⟩ := harg s hs i hn hi1
        rw [es1] at hi2
        have : argOf ins i = u.data := by simp [argOf, hu]
        rw [this] at hi2
        unfold Readable at hr ⊢
        rw [hi2]
        cases hpl : u.data.place with
        | static g => trivial
        | heap b =>
          rw [hpl] at hr
          simp only at hr ⊢
          rw [o2.live b, hr]; rfl
  · rw [o2.live b, hnil]; simp

/-- When a run fails, the memory of the inputs is freed as well. -/
theorem C112_cpp_failure (p : Prog) (choice : Nat → Bool) (hf : p.fails = true) (h0 h : Heap)
    (ins : List Omt) (hins : ∀ t ∈ ins, GoodOwn t) (o : Owns h0 h (ins.flatMap blocks)) :
    ∃ h', cppRun p choice h ins = some (h', .throws) ∧ ∀ b, h'.live b = h0.live b := by
  obtain ⟨h1, e1, o1⟩ := o.alloc.free
  have o1' : Owns h0 h1 (ins.flatMap blocks ++ []) := by simpa using o1
  obtain ⟨h2, e2, o2⟩ := destroyAll_ok hins o1'
  refine ⟨h2, ?_, fun b => by rw [o2.live b]; simp⟩
  unfold cppRun entryPoint
  simp only [hf, if_true]
  rw [e1]
  simp [e2]

/-- Python: whatever the order in which the arrays are dropped, nothing crashes; the arrays that
are left are in memory in use, which is none that was in use before the run, such as that of the
inputs; and when none is left, the heap is as it was before the run.  This holds when data is
copied (`force`) and when it is not.

Partial: the first entry point; contiguous arrays of supported types, strings writeable; outputs
in the same memory are at the same place in it, and when data is copied there are none. -/
theorem C112_python_partial (p : Prog) (choice : Nat → Bool) (hp : p.Ok choice) (force : Bool)
    (h0 : Heap) (hok : h0.Ok) (ins : List PyIn)
    (hi : ∀ i ∈ ins, i.contiguous = true ∧ i.kind ≠ .unsupported ∧
      (i.kind = .string → i.writeable = true))
    (hsame : ∀ s ∈ p.outputs, ∀ s' ∈ p.outputs, ∀ k, newBuffer choice s = some k →
      newBuffer choice s' = some k → ∀ args base,
        eval args base choice s = eval args base choice s')
    (hforce : force = true → (p.outputs.filterMap (newBuffer choice)).Nodup) :
    ∃ h st, pyRun p choice force h0 ins = some (h, .ok st) ∧
      st.arrays.length = p.outputs.length ∧
      ∀ order, ∃ st', pyDrops st order = some st' ∧
        (∀ a ∈ st'.arrays, ∃ b, a.data.place = .heap b ∧ st'.heap.live b = true ∧
          h0.live b = false) ∧
        (st'.arrays = [] → ∀ b, st'.heap.live b = h0.live b) := by
  obtain ⟨h, st, e, -, hl, inv⟩ := pyRun_ok p choice force ins hok hp hi hsame hforce
  refine ⟨h, st, e, hl, fun order => ?_⟩
  obtain ⟨st', e2, inv2, -⟩ := pyDrops_ok inv order
  refine ⟨st', e2, fun a ha => ?_, fun hnil b => by rw [inv2.live b, hnil]; simp⟩
  obtain ⟨b, h1, h2, h3⟩ := inv2.fresh a ha
  refine ⟨b, h3, ?_, h2⟩
  rw [inv2.live b, Bool.or_eq_true, List.any_eq_true]
  exact .inr ⟨a, ha, by simpa using h1⟩

/-- Nothing in use. -/
def noBlocks : Heap := ⟨fun _ => false, 0⟩

/-- A heap with one block, the data of an input. -/
def oneBlock : Heap := ⟨fun b => b = 0, 1⟩

/-- A model with a new buffer that is returned twice, a constant, its input, and a choice of two
buffers. -/
def modelExample : Prog :=
  { entries := [[.alloc 1, .view (.alloc 1) 0, .global 0, .view (.arg 0) 0,
      .select 0 (.alloc 2) (.alloc 3)]], entry := 0, buffers := 5, fails := false }

example : modelExample.Ok (fun _ => true) := by
  refine ⟨rfl, rfl, ?_, ?_⟩
  · intro s hs
    simp only [modelExample, Prog.outputs, List.getElem?_cons_zero, Option.getD_some,
      List.mem_cons, List.not_mem_nil, or_false] at hs
    rcases hs with rfl | rfl | rfl | rfl | rfl
    · trivial
    · trivial
    · trivial
    · trivial
    · exact ⟨by trivial, by trivial, fun _ => rfl⟩
  · have : ∀ s ∈ modelExample.outputs, (newBuffer (fun _ => true) s).all (· < 5) = true := by
      intro s hs
      simp only [modelExample, Prog.outputs, List.getElem?_cons_zero, Option.getD_some,
        List.mem_cons, List.not_mem_nil, or_false] at hs
      rcases hs with rfl | rfl | rfl | rfl | rfl <;> decide
    intro s hs k hk
    have := this s hs
    rw [hk] at this
    show k < 5
    simpa using this

example : ∃ h st, pyRun modelExample (fun _ => true) false oneBlock
    [⟨⟨.heap 0, 8⟩, true, true, .numeric⟩] = some (h, .ok st) ∧ st.arrays.length = 5 ∧
    ∃ st', pyDrops st [1, 0, 1, 0] = some st' ∧ st'.arrays.length = 1 :=
  ⟨_, _, rfl, by decide +kernel, _, rfl, by decide +kernel⟩

/-- An input that owns its data is freed with the run; of two outputs one is a buffer, one a
constant. -/
example : Owns noBlocks ⟨fun b => b = 0 || b = 1, 2⟩
      (([⟨1, ⟨.heap 0, 0⟩, true⟩] : List Omt).flatMap blocks) ∧
    ∃ h ts, cppRun ⟨[[.alloc 0, .global 0]], 0, 1, false⟩ (fun _ => true)
        ⟨fun b => b = 0 || b = 1, 2⟩ [⟨1, ⟨.heap 0, 0⟩, true⟩] = some (h, .ok ts) ∧
      h.live 0 = false ∧ (cppDrops h ts [1, 0]).isSome = true := by
  refine ⟨⟨fun b => ?_, by decide, fun b _ => rfl, ?_⟩, _, _, rfl, by decide +kernel,
    by decide +kernel⟩
  · simp [noBlocks, blocks, ownBlocks]
  · intro b hb
    simp only [Bool.or_eq_true, decide_eq_true_eq] at hb
    show b < 2
    omega

/-- A choice between a new buffer and a constant: the compiler says that the output does not own
its memory, and the buffer is never freed. -/
theorem C112_select_false :
    ∃ h st, pyRun ⟨[[.select 0 (.alloc 0) (.global 0)]], 0, 1, false⟩ (fun _ => true) false
        noBlocks [] = some (h, .ok st) ∧
      ∃ st', pyDrops st [0] = some st' ∧ st'.arrays.length = 0 ∧ st'.heap.live 1 = true :=
  ⟨_, _, rfl, _, rfl, by decide +kernel, by decide +kernel⟩

/-- A value that comes from other blocks of code, as after an If, is taken for an argument, and
the buffer is never freed. -/
theorem C112_join_false :
    ∃ h st, pyRun ⟨[[.join 0 (.alloc 0) (.alloc 1)]], 0, 2, false⟩ (fun _ => true) false
        noBlocks [] = some (h, .ok st) ∧
      ∃ st', pyDrops st [0] = some st' ∧ st'.arrays.length = 0 ∧ st'.heap.live 1 = true :=
  ⟨_, _, rfl, _, rfl, by decide +kernel, by decide +kernel⟩

/-- Two outputs at different places of the same buffer: capsules are found by the data pointer but
free the block, so that dropping both frees it twice. -/
theorem C112_views_false :
    ∃ h st, pyRun ⟨[[.view (.alloc 0) 0, .view (.alloc 0) 16]], 0, 1, false⟩ (fun _ => true) false
        noBlocks [] = some (h, .ok st) ∧ (pyDrops st [0, 0]).isNone = true :=
  ⟨_, _, rfl, by decide +kernel⟩

/-- A buffer that is returned twice is freed twice: in C++ when both outputs are dropped, in Python
when data is copied. -/
theorem C112_twice_false :
    (∃ h ts, cppRun ⟨[[.alloc 0, .alloc 0]], 0, 1, false⟩ (fun _ => true) noBlocks [] =
        some (h, .ok ts) ∧ (cppDrops h ts [0, 0]).isNone = true) ∧
      (pyRun ⟨[[.alloc 0, .alloc 0]], 0, 1, false⟩ (fun _ => true) true noBlocks []).isNone =
        true :=
  ⟨⟨_, _, rfl, by decide +kernel⟩, by decide +kernel⟩

/-- An input that is returned: in C++ the inputs are destroyed when the run returns, so that the
output is in memory that is no longer in use. -/
theorem C112_argument_false :
    ∃ h t, cppRun ⟨[[.arg 0]], 0, 0, false⟩ (fun _ => true)
        ⟨fun b => b = 0 || b = 1, 2⟩ [⟨1, ⟨.heap 0, 0⟩, true⟩] = some (h, .ok [t]) ∧
      ¬ Readable h t.data :=
  ⟨_, _, rfl, by show ¬ (_ = true); decide +kernel⟩

/-- With several entry points, what is known of the outputs of the first is used for all: a
constant that a second one returns is freed. -/
theorem C112_entry_false :
    (∃ h ts, cppRun ⟨[[.alloc 0], [.global 0]], 1, 1, false⟩ (fun _ => true) noBlocks [] =
        some (h, .ok ts) ∧ (cppDrops h ts [0]).isNone = true) :=
  ⟨_, _, rfl, by decide +kernel⟩

/-- In Python, when a run fails, or an input is rejected, or a string array is not writeable,
memory is never freed. -/
theorem C112_python_failure_false :
    (∃ h, pyRun ⟨[[.alloc 0]], 0, 1, true⟩ (fun _ => true) false oneBlock
        [⟨⟨.heap 0, 0⟩, true, true, .numeric⟩] = some (h, .throws) ∧ h.live 1 = true) ∧
      (∃ h, pyRun ⟨[[.alloc 0]], 0, 1, false⟩ (fun _ => true) false oneBlock
        [⟨⟨.heap 0, 0⟩, true, false, .numeric⟩, ⟨⟨.heap 0, 0⟩, false, true, .numeric⟩] =
          some (h, .throws) ∧ h.live 1 = true ∧ h.live 2 = true) ∧
      ∃ h st, pyRun ⟨[[]], 0, 0, false⟩ (fun _ => true) false oneBlock
        [⟨⟨.heap 0, 0⟩, true, false, .string⟩] = some (h, .ok st) ∧ h.live 1 = true :=
  ⟨⟨_, rfl, by decide +kernel⟩, ⟨_, rfl, by decide +kernel, by decide +kernel⟩,
    ⟨_, _, rfl, by decide +kernel⟩⟩

end Verif.Props
