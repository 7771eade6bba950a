import Mathlib.Data.List.Range
import Mathlib.Data.List.Nodup
import Mathlib.Algebra.BigOperators.Group.List.Basic

/-!
# Model of parallel scrubbing

Source: `scrub`, `/repo/src/Dialect/ONNX/ElementsAttr/DisposablePool.cpp` 95-139. There are `N`
translations in the iteration order of the map, `sizes i` the element count of entry `i`. Every
access under `translationMutex` is one step; translating an entry, which happens outside the mutex, is
one step as well (it reads the buffer of the entry and writes its `dense` field).
-/

namespace Verif.Pool

/-- Where a worker is in `work`, 120-133: fetching, in the loop over the rest of a batch, about to
dispose entry `i`, or finished. -/
inductive Wk
  | fetch
  | conv (batch : List Nat)
  | disp (i : Nat) (rest : List Nat)
  | fin

/-- Shared state. `cnt` counts translations of an entry; `bad` records that a disposed buffer was
read. -/
structure Sc (V : Type) where
  next : Nat
  buf : Nat → Option V
  dense : Nat → Option V
  cnt : Nat → Nat
  bad : Bool
  wk : Nat → Wk

/-- The loop of `fetchBatch`, 110-116: number of entries it adds, given how many there are left. The
code adds the size of the first entry every time (`next->second`). -/
def grow (size : Nat) : Nat → Nat → Nat → Nat
  | 0, _, _ => 0
  | left + 1, count, agg =>
    if count < 10 ∧ agg < 1000 then 1 + grow size left (count + 1) (agg + size) else 0

/-- `fetchBatch`, 101-119. -/
def batchLen (sizes : Nat → Nat) (N next : Nat) : Nat := grow (sizes next) (N - next) 0 0

/-- One step of worker `t`. -/
def scStep {V : Type} (sizes : Nat → Nat) (N : Nat) (s : Sc V) (t : Nat) : Sc V :=
  let set (w : Wk) : Nat → Wk := fun u => if u = t then w else s.wk u
  match s.wk t with
  | .fin => s
  | .fetch =>
    let n := batchLen sizes N s.next
    { s with next := s.next + n, wk := set (if n = 0 then .fin else .conv (List.range' s.next n)) }
  | .conv [] => { s with wk := set .fetch }
  | .conv (i :: rest) =>
    { s with
      dense := fun j => if j = i then s.buf i else s.dense j
      cnt := fun j => if j = i then s.cnt i + 1 else s.cnt j
      bad := s.bad || (s.buf i).isNone
      wk := set (.disp i rest) }
  | .disp i rest =>
    { s with buf := fun j => if j = i then none else s.buf j, wk := set (.conv rest) }

/-- Start with `T` workers; other thread numbers have no work. -/
def scInit {V : Type} (val : Nat → V) (T : Nat) : Sc V :=
  { next := 0, buf := fun i => some (val i), dense := fun _ => none, cnt := fun _ => 0, bad := false
    wk := fun t => if t < T then .fetch else .fin }

def scRun {V : Type} (sizes : Nat → Nat) (N : Nat) (s : Sc V) (sched : List Nat) : Sc V :=
  sched.foldl (scStep sizes N) s

/-! ## Invariant -/

variable {V : Type}

/-- Entries a worker still has to translate. -/
def Wk.pending : Wk → List Nat
  | .conv b => b
  | .disp _ r => r
  | _ => []

def Wk.cur : Wk → Option Nat
  | .disp i _ => some i
  | _ => none

structure ScInv (N T : Nat) (val : Nat → V) (s : Sc V) : Prop where
  le : s.next ≤ N
  nodup : ∀ t, (s.wk t).pending.Nodup
  disj : ∀ t u, t ≠ u → ∀ i ∈ (s.wk t).pending, i ∉ (s.wk u).pending
  lt : ∀ t, ∀ i ∈ (s.wk t).pending, i < s.next
  todo : ∀ i, (s.next ≤ i ∨ ∃ t, i ∈ (s.wk t).pending) →
    s.buf i = some (val i) ∧ s.dense i = none ∧ s.cnt i = 0
  done : ∀ i, i < s.next → (∀ t, i ∉ (s.wk t).pending) →
    s.dense i = some (val i) ∧ s.cnt i = 1 ∧ (s.buf i = none ∨ ∃ t, (s.wk t).cur = some i)
  cur : ∀ t i, (s.wk t).cur = some i → i < s.next ∧ ∀ u, i ∉ (s.wk u).pending
  fin : (∃ t, t < T ∧ s.wk t = .fin) → s.next = N
  out : ∀ t, T ≤ t → s.wk t = .fin
  good : s.bad = false

theorem grow_le (size left count agg : Nat) : grow size left count agg ≤ left := by
  induction left generalizing count agg with
  | zero => simp [grow]
  | succ left ih =>
    unfold grow
    split
    · have := ih (count + 1) (agg + size); omega
    · omega

theorem batchLen_le (sizes : Nat → Nat) (N next : Nat) (h : next ≤ N) :
    next + batchLen sizes N next ≤ N := by
  have := grow_le (sizes next) (N - next) 0 0
  unfold batchLen; omega

theorem batchLen_zero (sizes : Nat → Nat) (N next : Nat) (h : next ≤ N)
    (hz : batchLen sizes N next = 0) : next = N := by
  by_contra hne
  unfold batchLen at hz
  obtain ⟨m, hm⟩ : ∃ m, N - next = m + 1 := ⟨N - next - 1, by omega⟩
  rw [hm] at hz
  simp [grow] at hz

theorem inv_scInit (N T : Nat) (val : Nat → V) : ScInv N T val (scInit val T) := by
  have hp : ∀ t, ((scInit val T).wk t).pending = [] := by
    intro t
    simp only [scInit]
    split <;> rfl
  have hc : ∀ t, ((scInit val T).wk t).cur = none := by
    intro t
    simp only [scInit]
    split <;> rfl
  refine ⟨Nat.zero_le _, ?_, ?_, ?_, ?_, ?_, ?_, ?_, ?_, rfl⟩
  · intro t; rw [hp]; exact List.nodup_nil
  · intro t u _ i hi; rw [hp] at hi; simp at hi
  · intro t i hi; rw [hp] at hi; simp at hi
  · intro i _; exact ⟨rfl, rfl, rfl⟩
  · intro i hi; simp [scInit] at hi
  · intro t i hi; rw [hc] at hi; simp at hi
  · rintro ⟨t, ht, hf⟩
    simp [scInit, ht] at hf
  · intro t ht
    simp only [scInit]
    rw [if_neg (by omega)]

theorem inv_scStep {sizes : Nat → Nat} {N T : Nat} {val : Nat → V} {s : Sc V}
    (h : ScInv N T val s) (t : Nat) : ScInv N T val (scStep sizes N s t) := by
  unfold scStep
  cases hw : s.wk t with
  | fin => simpa using h
  | fetch =>
    have htT : t < T := by
      by_contra hc
      have := h.out t (by omega)
      rw [hw] at this; simp at this
    simp only
    set n := batchLen sizes N s.next with hn
    have hle := batchLen_le sizes N s.next h.le
    set w : Wk := if n = 0 then .fin else .conv (List.range' s.next n) with hwdef
    have hwp : w.pending = List.range' s.next n := by
      rw [hwdef]
      by_cases h0 : n = 0
      · simp [h0, Wk.pending]
      · simp [h0, Wk.pending]
    have hwc : w.cur = none := by
      rw [hwdef]; split <;> rfl
    have hold : ∀ u, u ≠ t → (if u = t then w else s.wk u) = s.wk u := fun u hu => by simp [hu]
    have htp : (s.wk t).pending = [] := by rw [hw]; rfl
    refine ⟨?_, ?_, ?_, ?_, ?_, ?_, ?_, ?_, ?_, h.good⟩
    · exact hle
    · intro u
      by_cases hu : u = t
      · simp only [hu, if_true, hwp]; exact List.nodup_range'
      · simp only [hold u hu]; exact h.nodup u
    · intro u v huv i hi
      by_cases hu : u = t
      · have hv : v ≠ t := fun hv => huv (by rw [hu, hv])
        simp only [hu, if_true, hwp, List.mem_range'_1] at hi
        simp only [hold v hv]
        intro hiv
        have := h.lt v i hiv
        omega
      · simp only [hold u hu] at hi
        have hil := h.lt u i hi
        by_cases hv : v = t
        · simp only [hv, if_true, hwp, List.mem_range'_1]
          omega
        · simp only [hold v hv]
          exact h.disj u v huv i hi
    · intro u i hi
      by_cases hu : u = t
      · simp only [hu, if_true, hwp, List.mem_range'_1] at hi
        exact hi.2
      · simp only [hold u hu] at hi
        have := h.lt u i hi
        simp only; omega
    · intro i hi
      simp only at hi
      apply h.todo
      rcases hi with hi | ⟨u, hi⟩
      · left; omega
      · by_cases hu : u = t
        · simp only [hu, if_true, hwp, List.mem_range'_1] at hi
          exact Or.inl hi.1
        · simp only [hold u hu] at hi
          exact Or.inr ⟨u, hi⟩
    · intro i hi hnp
      simp only at hi hnp
      have hnt := hnp t
      simp only [if_true, hwp, List.mem_range'_1] at hnt
      obtain ⟨h1, h2, h3⟩ := h.done i (by omega) (fun u => by
        by_cases hu : u = t
        · rw [hu, htp]; simp
        · have := hnp u
          simpa only [hold u hu] using this)
      refine ⟨h1, h2, ?_⟩
      rcases h3 with h3 | ⟨u, hu⟩
      · exact Or.inl h3
      · right
        refine ⟨u, ?_⟩
        have : u ≠ t := fun hc => by rw [hc, hw] at hu; simp [Wk.cur] at hu
        simpa only [hold u this] using hu
    · intro u i hi
      by_cases hu : u = t
      · simp only [hu, if_true, hwc] at hi
        simp at hi
      · simp only [hold u hu] at hi
        obtain ⟨h1, h2⟩ := h.cur u i hi
        refine ⟨by simp only; omega, fun v => ?_⟩
        by_cases hv : v = t
        · simp only [hv, if_true, hwp, List.mem_range'_1]; omega
        · simp only [hold v hv]; exact h2 v
    · rintro ⟨u, hu, hf⟩
      by_cases hut : u = t
      · simp only [hut, if_true] at hf
        have h0 : n = 0 := by
          by_contra h0
          rw [hwdef, if_neg h0] at hf
          simp at hf
        have := batchLen_zero sizes N s.next h.le h0
        simp only; omega
      · simp only [hold u hut] at hf
        have := h.fin ⟨u, hu, hf⟩
        simp only; omega
    · intro u hu
      have : u ≠ t := by omega
      simp only [hold u this]
      exact h.out u hu
  | conv b =>
    have htT : t < T := by
      by_contra hc
      have := h.out t (by omega)
      rw [hw] at this; simp at this
    cases b with
    | nil =>
      simp only
      have hp : ∀ u, (if u = t then Wk.fetch else s.wk u).pending = (s.wk u).pending := by
        intro u
        by_cases hu : u = t
        · simp [hu, hw, Wk.pending]
        · simp [hu]
      have hc : ∀ u, (if u = t then Wk.fetch else s.wk u).cur = (s.wk u).cur := by
        intro u
        by_cases hu : u = t
        · simp [hu, hw, Wk.cur]
        · simp [hu]
      refine ⟨h.le, ?_, ?_, ?_, ?_, ?_, ?_, ?_, ?_, h.good⟩
      · intro u; simp only [hp]; exact h.nodup u
      · intro u v huv i hi; simp only [hp] at hi ⊢; exact h.disj u v huv i hi
      · intro u i hi; simp only [hp] at hi; exact h.lt u i hi
      · intro i hi; simp only [hp] at hi; exact h.todo i hi
      · intro i hi hn; simp only [hp] at hn; simp only [hc]; exact h.done i hi hn
      · intro u i hi; simp only [hc] at hi; simp only [hp]; exact h.cur u i hi
      · rintro ⟨u, hu, hf⟩
        by_cases hut : u = t
        · simp [hut] at hf
        · exact h.fin ⟨u, hu, by simpa [hut] using hf⟩
      · intro u hu
        have : u ≠ t := by omega
        simpa [this] using h.out u hu
    | cons i0 rest =>
      simp only
      have hmem : i0 ∈ (s.wk t).pending := by rw [hw]; simp [Wk.pending]
      have hnd : (i0 :: rest).Nodup := by have := h.nodup t; rw [hw] at this; exact this
      rw [List.nodup_cons] at hnd
      obtain ⟨b1, b2, b3⟩ := h.todo i0 (Or.inr ⟨t, hmem⟩)
      have hpt : (if t = t then Wk.disp i0 rest else s.wk t).pending = rest := by simp [Wk.pending]
      have hold : ∀ u, u ≠ t → (if u = t then Wk.disp i0 rest else s.wk u) = s.wk u :=
        fun u hu => by simp [hu]
      have hpo : ∀ u i, i ∈ (if u = t then Wk.disp i0 rest else s.wk u).pending ↔
          i ∈ (s.wk u).pending ∧ i ≠ i0 := by
        intro u i
        by_cases hu : u = t
        · simp only [hu, if_true, hw, Wk.pending, List.mem_cons]
          constructor
          · intro hi
            exact ⟨Or.inr hi, fun hc => hnd.1 (hc ▸ hi)⟩
          · rintro ⟨hi | hi, hne⟩
            · exact absurd hi hne
            · exact hi
        · simp only [hold u hu]
          constructor
          · intro hi
            refine ⟨hi, fun hc => ?_⟩
            rw [hc] at hi
            exact h.disj t u (Ne.symm hu) i0 hmem hi
          · exact fun hi => hi.1
      refine ⟨h.le, ?_, ?_, ?_, ?_, ?_, ?_, ?_, ?_, ?_⟩
      · intro u
        by_cases hu : u = t
        · simp only [hu, if_true, Wk.pending]; exact hnd.2
        · simp only [hold u hu]; exact h.nodup u
      · intro u v huv i hi
        simp only [hpo] at hi ⊢
        exact fun hc => h.disj u v huv i hi.1 hc.1
      · intro u i hi
        simp only [hpo] at hi
        exact h.lt u i hi.1
      · intro i hi
        have hne : i ≠ i0 := by
          rcases hi with hi | ⟨u, hi⟩
          · have := h.lt t i0 hmem
            simp only at hi; omega
          · simp only [hpo] at hi; exact hi.2
        simp only [hne, if_false]
        apply h.todo
        rcases hi with hi | ⟨u, hi⟩
        · exact Or.inl hi
        · simp only [hpo] at hi; exact Or.inr ⟨u, hi.1⟩
      · intro i hi hn
        simp only [hpo] at hn
        by_cases hne : i = i0
        · subst hne
          simp only [if_true]
          exact ⟨b1, by omega, Or.inr ⟨t, by simp [Wk.cur]⟩⟩
        · simp only [hne, if_false]
          obtain ⟨h1, h2, h3⟩ := h.done i hi (fun u hu => hn u ⟨hu, hne⟩)
          refine ⟨h1, h2, ?_⟩
          rcases h3 with h3 | ⟨u, hu⟩
          · exact Or.inl h3
          · right
            refine ⟨u, ?_⟩
            have : u ≠ t := fun hc => by rw [hc, hw] at hu; simp [Wk.cur] at hu
            simpa only [hold u this] using hu
      · intro u i hi
        by_cases hu : u = t
        · simp only [hu, if_true, Wk.cur, Option.some.injEq] at hi
          subst hi
          exact ⟨h.lt t _ hmem, fun v => by simp only [hpo]; exact fun hc => hc.2 rfl⟩
        · simp only [hold u hu] at hi
          obtain ⟨h1, h2⟩ := h.cur u i hi
          exact ⟨h1, fun v => by simp only [hpo]; exact fun hc => h2 v hc.1⟩
      · rintro ⟨u, hu, hf⟩
        by_cases hut : u = t
        · simp [hut] at hf
        · exact h.fin ⟨u, hu, by simpa [hut] using hf⟩
      · intro u hu
        have : u ≠ t := by omega
        simpa [this] using h.out u hu
      · simp [h.good, b1]
  | disp i0 rest =>
    have htT : t < T := by
      by_contra hc
      have := h.out t (by omega)
      rw [hw] at this; simp at this
    simp only
    obtain ⟨c1, c2⟩ := h.cur t i0 (by rw [hw]; rfl)
    have hp : ∀ u, (if u = t then Wk.conv rest else s.wk u).pending = (s.wk u).pending := by
      intro u
      by_cases hu : u = t
      · simp [hu, hw, Wk.pending]
      · simp [hu]
    refine ⟨h.le, ?_, ?_, ?_, ?_, ?_, ?_, ?_, ?_, h.good⟩
    · intro u; simp only [hp]; exact h.nodup u
    · intro u v huv i hi; simp only [hp] at hi ⊢; exact h.disj u v huv i hi
    · intro u i hi; simp only [hp] at hi; exact h.lt u i hi
    · intro i hi
      simp only [hp] at hi
      have hne : i ≠ i0 := by
        rintro rfl
        rcases hi with hi | ⟨u, hi⟩
        · have hi' : s.next ≤ i := hi
          omega
        · exact c2 u hi
      simp only [hne, if_false]
      exact h.todo i hi
    · intro i hi hn
      simp only [hp] at hn
      obtain ⟨h1, h2, h3⟩ := h.done i hi hn
      refine ⟨h1, h2, ?_⟩
      simp only
      by_cases hne : i = i0
      · simp [hne]
      · simp only [hne, if_false]
        rcases h3 with h3 | ⟨u, hu⟩
        · exact Or.inl h3
        · right
          refine ⟨u, ?_⟩
          have : u ≠ t := fun hc => by
            rw [hc, hw] at hu
            simp [Wk.cur] at hu
            exact hne hu.symm
          simpa [this] using hu
    · intro u i hi
      by_cases hu : u = t
      · simp [hu, Wk.cur] at hi
      · simp only [hu, if_false] at hi
        simp only [hp]
        exact h.cur u i hi
    · rintro ⟨u, hu, hf⟩
      by_cases hut : u = t
      · simp [hut] at hf
      · exact h.fin ⟨u, hu, by simpa [hut] using hf⟩
    · intro u hu
      have : u ≠ t := by omega
      simpa [this] using h.out u hu

theorem inv_scRun {sizes : Nat → Nat} {N T : Nat} {val : Nat → V} {s : Sc V}
    (h : ScInv N T val s) (sched : List Nat) : ScInv N T val (scRun sizes N s sched) := by
  induction sched generalizing s with
  | nil => exact h
  | cons t sched ih => exact ih (inv_scStep h t)

/-! ## Termination -/

/-- Steps a worker has left in its batch, with room for the next fetch. -/
def Wk.weight : Wk → Nat
  | .fetch => 1
  | .conv b => 3 * b.length + 2
  | .disp _ r => 3 * r.length + 4
  | .fin => 0

def measure (N T : Nat) (s : Sc V) : Nat :=
  5 * (N - s.next) + ((List.range T).map fun t => (s.wk t).weight).sum

theorem sum_update (f g : Nat → Nat) (T t : Nat) (ht : t < T) (hg : ∀ u, u ≠ t → g u = f u) :
    ((List.range T).map g).sum + f t = ((List.range T).map f).sum + g t := by
  induction T with
  | zero => omega
  | succ T ih =>
    rw [List.range_succ, List.map_append, List.map_append, List.sum_append, List.sum_append]
    simp only [List.map_cons, List.map_nil, List.sum_cons, List.sum_nil, Nat.add_zero]
    rcases Nat.lt_or_ge t T with h1 | h1
    · have := ih h1
      rw [hg T (by omega)]
      omega
    · have : t = T := by omega
      subst this
      have : (List.range t).map g = (List.range t).map f := by
        apply List.map_congr_left
        intro u hu
        exact hg u (by have := List.mem_range.1 hu; omega)
      rw [this]; omega

theorem measure_lt {sizes : Nat → Nat} {N T : Nat} {s : Sc V} (hle : s.next ≤ N) {t : Nat}
    (ht : t < T) (hnf : s.wk t ≠ .fin) : measure N T (scStep sizes N s t) < measure N T s := by
  unfold measure
  have key : ∀ (w : Wk), ((List.range T).map fun u => (if u = t then w else s.wk u).weight).sum +
      (s.wk t).weight = ((List.range T).map fun u => (s.wk u).weight).sum + w.weight := by
    intro w
    have := sum_update (fun u => (s.wk u).weight) (fun u => (if u = t then w else s.wk u).weight) T t
      ht (fun u hu => by simp [hu])
    simpa using this
  unfold scStep
  cases hw : s.wk t with
  | fin => exact absurd hw hnf
  | fetch =>
    simp only
    have k := key (if batchLen sizes N s.next = 0 then .fin
      else .conv (List.range' s.next (batchLen sizes N s.next)))
    have hwt : (s.wk t).weight = 1 := by rw [hw]; rfl
    have hb := batchLen_le sizes N s.next hle
    by_cases h0 : batchLen sizes N s.next = 0
    · rw [if_pos h0] at k ⊢
      have hww : Wk.fin.weight = 0 := rfl
      rw [hwt, hww] at k
      rw [h0]
      omega
    · rw [if_neg h0] at k ⊢
      have hww : (Wk.conv (List.range' s.next (batchLen sizes N s.next))).weight =
        3 * batchLen sizes N s.next + 2 := by simp [Wk.weight]
      rw [hwt, hww] at k
      omega
  | conv b =>
    cases b with
    | nil =>
      have k := key .fetch
      have hwt : (s.wk t).weight = 2 := by rw [hw]; rfl
      have hww : Wk.fetch.weight = 1 := rfl
      rw [hwt, hww] at k
      simp only
      omega
    | cons i rest =>
      have k := key (.disp i rest)
      have hwt : (s.wk t).weight = 3 * (rest.length + 1) + 2 := by rw [hw]; rfl
      have hww : (Wk.disp i rest).weight = 3 * rest.length + 4 := rfl
      rw [hwt, hww] at k
      simp only
      omega
  | disp i rest =>
    have k := key (.conv rest)
    have hwt : (s.wk t).weight = 3 * rest.length + 4 := by rw [hw]; rfl
    have hww : (Wk.conv rest).weight = 3 * rest.length + 2 := rfl
    rw [hwt, hww] at k
    simp only
    omega

end Verif.Pool
