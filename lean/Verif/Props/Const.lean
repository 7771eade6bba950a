import Verif.Runtime.ConstLemmas

/-!
# C12, C13, C42: external constant files
-/

namespace Verif.Props

open Verif.Runtime.Const

/-- C12, reading variant. For every file, size and behaviour of the read calls: success means that
no read failed and the buffer holds exactly the first `size` bytes of the file and nothing else was
written; failure means that a read reported an error or the file is too short. At most `size` reads
are made. -/
theorem C12_read_exact (file : List Byte) (sched : Nat → Option Nat) (size : Nat)
    (mem : Nat → Byte) :
    match mallocAndReadFile file sched CHUNK_SIZE size mem with
    | .ok s => size ≤ file.length ∧ (∀ j, j < size → file[j]? = some (s.mem j)) ∧
        (∀ j, size ≤ j → s.mem j = mem j) ∧ (∀ i, i < s.calls → (sched i).isSome) ∧
        s.calls ≤ size
    | .failed c => sched c = none ∨ file.length < size := by
  have h := readAll_post (file := file) (sched := sched) (mem0 := mem) (chunkSize := CHUNK_SIZE)
    (by decide) size 0 { calls := 0, pos := 0, mem := mem }
    ⟨rfl, by omega, by intro j hj; omega, by intro j _; rfl, by intro i hi; simp at hi,
      by simp⟩
  rw [Nat.zero_add] at h
  unfold mallocAndReadFile
  split
  · rename_i s he
    rw [he] at h
    exact ⟨h.le, h.bytes, h.rest, h.ok, h.calls⟩
  · rename_i c he
    rw [he] at h
    exact h

/-- C12, reading variant, the other direction: with enough bytes in the file and no read error the
load succeeds whatever the sizes of the short reads. -/
theorem C12_read_succeeds (file : List Byte) (sched : Nat → Option Nat) (size : Nat)
    (mem : Nat → Byte) (hlen : size ≤ file.length) (hok : ∀ i, (sched i).isSome) :
    ∃ s, mallocAndReadFile file sched CHUNK_SIZE size mem = .ok s := by
  have h := C12_read_exact file sched size mem
  split at h
  · rename_i s he; exact ⟨s, he⟩
  · rename_i c he
    rcases h with h | h
    · have := hok c; rw [h] at this; simp at this
    · omega

/-- A five-byte file read one byte at a time. -/
example : ∃ s, mallocAndReadFile [1, 2, 3, 4, 5] (fun _ => some 0) CHUNK_SIZE 5 (fun _ => 0)
    = .ok s := C12_read_succeeds _ _ _ _ (by decide) (by simp)

/-- C12, mapping variant: if the mapping succeeds and the file is long enough, the constants are
the bytes of the file. Missing: the file length is not checked (see `C12_mmap_short_false`). -/
theorem C12_mmap_partial (file : List Byte) (ok : Bool) (size : Nat) (hlen : size ≤ file.length)
    (view : Nat → Option Byte) (h : mmapAndReadFile file ok = some view) :
    ∀ j, j < size → view j = file[j]? := by
  intro j hj
  unfold mmapAndReadFile at h
  split at h
  · cases h
    unfold mapped
    rw [if_pos (by omega)]
  · cases h

example : (mmapAndReadFile [7, 8, 9] true).isSome := rfl

/-- C12 is false for the mapping variant: with a truncated (here empty) file the load succeeds and
reading a constant faults. -/
theorem C12_mmap_short_false :
    ∃ (file : List Byte) (size : Nat) (view : Nat → Option Byte),
      file.length < size ∧ mmapAndReadFile file true = some view ∧ ∃ j, j < size ∧ view j = none :=
  ⟨[], 1, mapped [], by decide, rfl, 0, by decide, rfl⟩

/-! ## C13 -/

/-- The constructor emitted into the model library, ConvertKrnlToLLVM.cpp 680-718: load, return if
it failed, then set the pointer of the constant. -/
def ctor (v : Variant) (offset : Nat) (e : LoadEvent) (s : St) : Option (Bool × St) :=
  match load v e s with
  | .error => none
  | .ret false s' => some (false, s')
  | .ret true s' =>
    match getAddr offset s' with
    | .error => none
    | .ret _ s'' => some (true, s'')

def ctors (v : Variant) (offset : Nat) : List LoadEvent → St → Option St
  | [], s => some s
  | e :: es, s => (ctor v offset e s).bind fun r => ctors v offset es r.2

/-- Either nothing is loaded, or one live block is, and the constant points into it. -/
def Loaded (offset : Nat) (s : St) : Prop :=
  (s.addr = none ∧ s.out = none ∧ s.loads = 0) ∨
  (∃ p, s.addr = some p ∧ s.live p = true ∧ s.out = some (some p, offset) ∧ s.loads = 1)

theorem loaded_ctor (v : Variant) (offset : Nat) (e : LoadEvent)
    (hv : v = .mmap ∨ e ≠ .readFails) (s : St) (hs : Loaded offset s) :
    ∃ b s', ctor v offset e s = some (b, s') ∧ Loaded offset s' ∧
      (b = true → ∃ p, s'.addr = some p ∧ s'.live p = true ∧ s'.out = some (some p, offset)) := by
  rcases hs with ⟨h1, h2, h3⟩ | ⟨p, h1, h2, h3, h4⟩
  · cases e with
    | openFails =>
      exact ⟨false, s, by simp [ctor, load, h1], Or.inl ⟨h1, h2, h3⟩, by simp⟩
    | allocFails =>
      exact ⟨false, s, by simp [ctor, load, h1], Or.inl ⟨h1, h2, h3⟩, by simp⟩
    | readFails =>
      rcases hv with rfl | hv
      · exact ⟨false, s, by simp [ctor, load, h1], Or.inl ⟨h1, h2, h3⟩, by simp⟩
      · exact absurd rfl hv
    | succeeds =>
      refine ⟨true, _, by simp only [ctor, load, h1, getAddr, h2]; rfl, Or.inr ⟨s.next, rfl, by simp,
        rfl, by simp [h3]⟩, ?_⟩
      intro _
      exact ⟨s.next, rfl, by simp, rfl⟩
  · exact ⟨true, s, by simp [ctor, load, h1, getAddr, h3], Or.inr ⟨p, h1, h2, h3, h4⟩,
      fun _ => ⟨p, h1, h2, h3⟩⟩

/-- C13 for the histories the generated code produces: any number of constructor runs, each with
any failure (in the malloc variant: any failure but a read error), then one destructor run.
No error occurs, the file is loaded at most once, each successful constructor run leaves the
constant pointing into live memory, and the destructor frees it once. Missing: read errors in the
malloc variant, repeated unloading and loading again (see the `_false` theorems). -/
theorem C13_histories_partial (v : Variant) (offset : Nat) (es : List LoadEvent)
    (hv : v = .mmap ∨ ∀ e ∈ es, e ≠ .readFails) :
    ∃ s, ctors v offset es {} = some s ∧ s.loads ≤ 1 ∧
      (∀ e, (v = .mmap ∨ e ≠ .readFails) → ∃ b s', ctor v offset e s = some (b, s') ∧
        s'.loads ≤ 1 ∧ (b = true →
          ∃ p, s'.addr = some p ∧ s'.live p = true ∧ s'.out = some (some p, offset))) ∧
      ∃ b s', unload s = .ret b s' ∧ (b = true ↔ s.loads = 1) := by
  have key : ∀ (es : List LoadEvent) (s : St), Loaded offset s →
      (v = .mmap ∨ ∀ e ∈ es, e ≠ .readFails) → ∃ s', ctors v offset es s = some s' ∧
        Loaded offset s' := by
    intro es
    induction es with
    | nil => intro s hs _; exact ⟨s, rfl, hs⟩
    | cons e es ih =>
      intro s hs hv
      obtain ⟨b, s', h1, h2, _⟩ := loaded_ctor v offset e
        (hv.imp id fun h => h e (by simp)) s hs
      obtain ⟨s2, h3, h4⟩ := ih s' h2 (hv.imp id fun h x hx => h x (by simp [hx]))
      exact ⟨s2, by simp [ctors, h1, h3], h4⟩
  have hle : ∀ s, Loaded offset s → s.loads ≤ 1 := by
    rintro s (⟨_, _, h⟩ | ⟨_, _, _, _, h⟩) <;> omega
  obtain ⟨s, h1, h2⟩ := key es {} (Or.inl ⟨rfl, rfl, rfl⟩) hv
  refine ⟨s, h1, hle s h2, ?_, ?_⟩
  · intro e he
    obtain ⟨b, s', q1, q2, q3⟩ := loaded_ctor v offset e he s h2
    exact ⟨b, s', q1, hle s' q2, q3⟩
  · rcases h2 with ⟨a, b, c⟩ | ⟨p, a, b, c, d⟩
    · exact ⟨false, s, by simp [unload, a], by simp [c]⟩
    · exact ⟨true, _, by simp only [unload, a, b, if_true]; rfl, by simp [d]⟩

/-- A failing open, a failing mapping, two loads: the file is read once. -/
example : ((ctors .mmap 16 [.openFails, .allocFails, .succeeds, .succeeds] {}).map St.loads)
    = some 1 := rfl

/-- C13 is false after a read error in the malloc variant: the next load reports success and the
constants are in freed memory; unloading frees the block a second time. -/
theorem C13_retry_false : ∃ s s',
    load .malloc .readFails {} = .ret false s ∧ load .malloc .succeeds s = .ret true s' ∧
    (∃ p, s'.addr = some p ∧ s'.live p = false) ∧ s'.loads = 0 ∧ unload s' = .error := by
  refine ⟨_, _, rfl, rfl, ⟨0, rfl, rfl⟩, rfl, rfl⟩

/-- C13 is false for repeated unloading, in both variants. -/
theorem C13_double_unload_false (v : Variant) :
    run v [.load .succeeds, .unload, .unload] {} = none := by
  cases v <;> rfl

/-- C13 is false for loading after unloading: success is reported and the memory is not mapped. -/
theorem C13_reload_false (v : Variant) (e : LoadEvent) : ∃ s s',
    run v [.load .succeeds, .unload] {} = some s ∧ load v e s = .ret true s' ∧
    ∃ p, s'.addr = some p ∧ s'.live p = false := by
  cases v <;> exact ⟨_, _, rfl, rfl, 0, rfl, by simp⟩

/-- Asking for the address of a constant before a successful load fixes a null-based address for
good. -/
theorem C13_early_get_false (v : Variant) : ∃ s,
    run v [.load .openFails, .get 64, .load .succeeds, .get 64] {} = some s ∧
    s.out = some (none, 64) := by
  cases v <;> exact ⟨_, rfl, rfl⟩

/-! ## C42: packing -/

/-- C42: every constant can be read back from the written file at its recorded offset, the offset
is a multiple of its alignment, and the file is large enough. -/
theorem C42_pack_read_back (cs : List Cst) (i : Nat) (c : Cst) (hc : cs[i]? = some c) :
    ∃ o, (pack cs []).2[i]? = some o ∧
      o + c.data.length ≤ (pack cs []).1.length ∧
      (∀ j, j < c.data.length → (pack cs []).1[o + j]? = c.data[j]?) ∧
      (0 < c.align → c.align ∣ (o : Int)) := by
  obtain ⟨h1, h2⟩ := pack_spec cs []
  have hi : i < cs.length := (List.getElem?_eq_some_iff.1 hc).1
  obtain ⟨o, ho⟩ : ∃ o, (pack cs []).2[i]? = some o :=
    ⟨_, List.getElem?_eq_getElem (by omega)⟩
  obtain ⟨_, a2, a3, a4⟩ := h2 i c o hc ho
  refine ⟨o, ho, a2, ?_, ?_⟩
  · intro j hj
    have : ((pack cs []).1.drop o).take c.data.length = c.data := a3
    have h := congrArg (fun l => l[j]?) this
    simp only [List.getElem?_take, hj, if_true, List.getElem?_drop] at h
    exact h
  · intro ha
    have h3 := a4 ha
    have h4 : (c.align.toNat : Int) = c.align := Int.toNat_of_nonneg (by omega)
    have h5 : c.align.toNat ∣ o := Nat.dvd_of_mod_eq_zero h3
    rw [← h4]
    exact Int.natCast_dvd_natCast.2 h5

/-- C42: constants never overlap in the file. -/
theorem C42_pack_disjoint (cs : List Cst) (i j : Nat) (hij : i < j) (c d : Cst)
    (hc : cs[i]? = some c) (_hd : cs[j]? = some d) (o o' : Nat)
    (ho : (pack cs []).2[i]? = some o) (ho' : (pack cs []).2[j]? = some o') :
    o + c.data.length ≤ o' := by
  have key : ∀ (cs : List Cst) (file : List Byte) (i j : Nat) (c : Cst) (o o' : Nat), i < j →
      cs[i]? = some c → (pack cs file).2[i]? = some o → (pack cs file).2[j]? = some o' →
      o + c.data.length ≤ o' := by
    intro cs
    induction cs with
    | nil => intro file i j c o o' _ h; simp at h
    | cons a cs ih =>
      intro file i j c o o' hij hc ho ho'
      simp only [pack] at ho ho'
      cases j with
      | zero => omega
      | succ j =>
        simp only [List.getElem?_cons_succ] at ho'
        cases i with
        | zero =>
          simp only [List.getElem?_cons_zero, Option.some.injEq] at hc ho
          subst hc ho
          obtain ⟨h1, h2⟩ := pack_spec cs
            (file ++ List.replicate (padSize file.length a.align) 0 ++ a.data)
          have hj : j < cs.length := by
            rw [← h1]; exact (List.getElem?_eq_some_iff.1 ho').1
          have := (h2 j _ o' (List.getElem?_eq_getElem hj) ho').1
          simp only [List.length_append, List.length_replicate] at this ⊢
          omega
        | succ i =>
          simp only [List.getElem?_cons_succ] at hc ho
          exact ih _ i j c o o' (by omega) hc ho ho'
  exact key cs [] i j c o o' hij hc ho ho'

/-- C12 and C42 together: what the runtime loads at the offset of a constant is that constant. -/
theorem C42_pack_then_load (cs : List Cst) (sched : Nat → Option Nat) (mem : Nat → Byte) (s : Rd)
    (h : mallocAndReadFile (pack cs []).1 sched CHUNK_SIZE (pack cs []).1.length mem = .ok s)
    (i : Nat) (c : Cst) (hc : cs[i]? = some c) :
    ∃ o, (pack cs []).2[i]? = some o ∧
      ∀ j, j < c.data.length → some (s.mem (o + j)) = c.data[j]? := by
  obtain ⟨o, h1, h2, h3, _⟩ := C42_pack_read_back cs i c hc
  refine ⟨o, h1, ?_⟩
  intro j hj
  have := C12_read_exact (pack cs []).1 sched (pack cs []).1.length mem
  rw [h] at this
  rw [← this.2.1 (o + j) (by omega), h3 j hj]

example : pack [⟨8, [1, 2, 3]⟩, ⟨4, [4, 5]⟩, ⟨-1, [6]⟩] [] =
    ([1, 2, 3, 0, 4, 5, 6], [0, 4, 6]) := by decide

end Verif.Props
