import Mathlib.Data.Int.Interval
import Mathlib.Data.List.Basic
import Mathlib.Data.List.Nodup
import Mathlib.Data.List.Flatten
import Mathlib.Tactic.Ring

/-!
Common vocabulary of the models of the ONNX to krnl lowerings: index tuples,
bounds-checked accesses to a memref, and the loop nests produced by
`krnl.iterate` over zero-based upper bounds.

Source: /repo/src/Dialect/Krnl/DialectBuilder.cpp (`iterateIE`, `load`, `store`),
/repo/src/Conversion/KrnlToAffine/ConvertKrnlToAffine.cpp 369-622 (one
`affine.for` per bound pair, outermost first).
-/

namespace Verif.Lower

/-- An index tuple. -/
abbrev Idx := List ℤ

/-- The tuple is within a shape: same rank, every index in `[0, dim)`. -/
def InShape (idx : Idx) (dims : List ℤ) : Prop :=
  List.Forall₂ (fun x d => 0 ≤ x ∧ x < d) idx dims

/-- Decision procedure for `InShape`. -/
def decInShape : ∀ (idx : Idx) (dims : List ℤ), Decidable (InShape idx dims)
  | [], [] => .isTrue .nil
  | [], _ :: _ => .isFalse (by intro h; cases h)
  | _ :: _, [] => .isFalse (by intro h; cases h)
  | x :: xs, d :: ds =>
    match decInShape xs ds, (inferInstance : Decidable (0 ≤ x ∧ x < d)) with
    | .isTrue h, .isTrue h' => .isTrue (.cons h' h)
    | .isFalse h, _ => .isFalse (by intro g; cases g; exact h ‹_›)
    | _, .isFalse h => .isFalse (by intro g; cases g; exact h ‹_›)

instance (idx : Idx) (dims : List ℤ) : Decidable (InShape idx dims) := decInShape idx dims

theorem inShape_nil : InShape [] [] := List.Forall₂.nil

theorem inShape_cons {x d : ℤ} {xs ds : List ℤ} :
    InShape (x :: xs) (d :: ds) ↔ (0 ≤ x ∧ x < d) ∧ InShape xs ds :=
  List.forall₂_cons

theorem InShape.length {idx dims : List ℤ} (h : InShape idx dims) : idx.length = dims.length :=
  List.Forall₂.length_eq h

theorem inShape_append {a b : Idx} {da db : List ℤ} (h : a.length = da.length) :
    InShape (a ++ b) (da ++ db) ↔ InShape a da ∧ InShape b db := by
  induction a generalizing da with
  | nil =>
    cases da with
    | nil => simp [inShape_nil]
    | cons => simp at h
  | cons x xs ih =>
    cases da with
    | nil => simp at h
    | cons d ds =>
      simp only [List.cons_append, inShape_cons]
      rw [ih (by simpa using h)]
      tauto

/-- A memref: its run-time shape and its contents. -/
structure Mem (R : Type*) where
  shape : List ℤ
  data : Idx → R

/-- `krnl.load` with a bounds check. -/
def Mem.load {R : Type*} (m : Mem R) (idx : Idx) : Option R :=
  if InShape idx m.shape then some (m.data idx) else none

/-- `krnl.store` with a bounds check. -/
def Mem.store {R : Type*} (m : Mem R) (idx : Idx) (v : R) : Option (Mem R) :=
  if InShape idx m.shape then
    some { m with data := fun i => if i = idx then v else m.data i } else none

/-- Values of the induction variable of a loop from 0 to `d`. -/
def upto (d : ℤ) : List ℤ := (List.range d.toNat).map fun (k : ℕ) => (k : ℤ)

theorem mem_upto {d x : ℤ} : x ∈ upto d ↔ 0 ≤ x ∧ x < d := by
  unfold upto
  simp only [List.mem_map, List.mem_range]
  constructor
  · rintro ⟨k, hk, rfl⟩; omega
  · rintro ⟨h0, h⟩; exact ⟨x.toNat, by omega, by omega⟩

theorem nodup_upto (d : ℤ) : (upto d).Nodup := by
  unfold upto
  refine List.Nodup.map ?_ List.nodup_range
  intro a b h; exact Int.ofNat_inj.1 h

/-- The index tuples of a nest of zero-based loops, in execution order. -/
def idxs : List ℤ → List Idx
  | [] => [[]]
  | d :: ds => (upto d).flatMap fun x => (idxs ds).map (x :: ·)

theorem mem_idxs : ∀ {dims : List ℤ} {i : Idx}, i ∈ idxs dims ↔ InShape i dims
  | [], i => by
    simp only [idxs, List.mem_singleton]
    constructor
    · rintro rfl; exact inShape_nil
    · intro h; cases h; rfl
  | d :: ds, i => by
    simp only [idxs, List.mem_flatMap, List.mem_map]
    constructor
    · rintro ⟨x, hx, j, hj, rfl⟩
      exact inShape_cons.2 ⟨mem_upto.1 hx, mem_idxs.1 hj⟩
    · intro h
      cases h with
      | cons h1 h2 => exact ⟨_, mem_upto.2 h1, _, mem_idxs.2 h2, rfl⟩

theorem nodup_idxs : ∀ dims : List ℤ, (idxs dims).Nodup
  | [] => by simp [idxs]
  | d :: ds => by
    simp only [idxs]
    rw [List.nodup_flatMap]
    refine ⟨fun x _ => (nodup_idxs ds).map (fun a b h => by simpa using h), ?_⟩
    refine (nodup_upto d).imp ?_
    intro a b hab
    rw [Function.onFun, List.disjoint_left]
    rintro i h1 h2
    simp only [List.mem_map] at h1 h2
    obtain ⟨_, _, rfl⟩ := h1
    obtain ⟨_, _, h⟩ := h2
    simp only [List.cons.injEq] at h
    exact hab h.1.symm

/-- `krnl.iterate` from zero to `dims`, the body changing a state. -/
def iterate {S : Type*} (dims : List ℤ) (body : Idx → S → Option S) (s : S) : Option S :=
  (idxs dims).foldlM (fun s i => body i s) s

/-- The common shape of the lowerings that fill their output: at every index of a
loop nest over the output dimensions, compute a value from the inputs and store it
there. -/
def fill {R : Type*} (out : Mem R) (f : Idx → Option R) : Option (Mem R) :=
  iterate out.shape (fun i o => (f i).bind fun v => o.store i v) out

theorem foldlM_store {R : Type*} (dims : List ℤ) (f : Idx → Option R) (v : Idx → R) :
    ∀ (L : List Idx) (m : Mem R), m.shape = dims → (∀ i ∈ L, InShape i dims) →
      (∀ i ∈ L, f i = some (v i)) →
      L.foldlM (fun o i => (f i).bind fun w => o.store i w) m =
        some { shape := dims, data := fun i => if i ∈ L then v i else m.data i }
  | [], m, hs, _, _ => by
    cases m; simp only at hs; subst hs; simp
  | a :: L, m, hs, hin, hv => by
    rw [List.foldlM_cons, hv a (by simp)]
    have e : m.store a (v a) =
        some { m with data := fun i => if i = a then v a else m.data i } := by
      unfold Mem.store
      rw [if_pos (by rw [hs]; exact hin a (by simp))]
    simp only [Option.bind_some, e, Option.bind_eq_bind]
    rw [foldlM_store dims f v L { m with data := fun i => if i = a then v a else m.data i } hs (fun i h => hin i (by simp [h]))
      (fun i h => hv i (by simp [h]))]
    congr 2
    funext i
    by_cases h1 : i ∈ L
    · simp [h1]
    · by_cases h2 : i = a
      · subst h2; simp [h1]
      · simp [h1, h2]

/-- A filled output holds at every index the computed value. -/
theorem fill_spec {R : Type*} (out : Mem R) (f : Idx → Option R) (v : Idx → R)
    (h : ∀ i, InShape i out.shape → f i = some (v i)) :
    ∃ o, fill out f = some o ∧ o.shape = out.shape ∧
      ∀ i, InShape i out.shape → o.data i = v i := by
  refine ⟨_, foldlM_store out.shape f v _ out rfl (fun i hi => mem_idxs.1 hi)
    (fun i hi => h i (mem_idxs.1 hi)), rfl, ?_⟩
  intro i hi
  simp only
  rw [if_pos (mem_idxs.2 hi)]

/-- A failing computation at any index makes the whole nest fail. -/
theorem fill_none {R : Type*} (out : Mem R) (f : Idx → Option R) {i : Idx}
    (hi : InShape i out.shape) (h : f i = none) : fill out f = none := by
  unfold fill iterate
  have key : ∀ (L : List Idx) (m : Mem R), i ∈ L →
      L.foldlM (fun o i => (f i).bind fun w => o.store i w) m = none := by
    intro L
    induction L with
    | nil => intro m hm; simp at hm
    | cons a L ih =>
      intro m hm
      rw [List.foldlM_cons]
      rcases List.mem_cons.1 hm with rfl | hm
      · rw [h]; rfl
      · cases ((f a).bind fun w => m.store a w) with
        | none => rfl
        | some m' => exact ih m' hm
  exact key _ _ (mem_idxs.2 hi)

/-- A reduction loop from 0 to `n` that carries a value. -/
def reduceLoop {R : Type*} (n : ℤ) (init : R) (body : ℤ → R → Option R) : Option R :=
  (upto n).foldlM (fun acc k => body k acc) init

theorem upto_eq_range (n : ℤ) : upto n = (List.range n.toNat).map fun (k : ℕ) => (k : ℤ) := rfl

theorem upto_succ (n : ℕ) : upto ((n : ℤ) + 1) = upto n ++ [(n : ℤ)] := by
  unfold upto
  rw [show ((n : ℤ) + 1).toNat = n + 1 by omega, List.range_succ]
  simp

theorem reduceLoop_spec {R : Type*} (body : ℤ → R → Option R) (g : ℤ → R → R) (init : R) (n : ℤ)
    (h : ∀ k acc, 0 ≤ k → k < n → body k acc = some (g k acc)) :
    reduceLoop n init body = some ((upto n).foldl (fun acc k => g k acc) init) := by
  unfold reduceLoop
  have key : ∀ (L : List ℤ) (a : R), (∀ k ∈ L, 0 ≤ k ∧ k < n) →
      L.foldlM (fun acc k => body k acc) a = some (L.foldl (fun acc k => g k acc) a) := by
    intro L
    induction L with
    | nil => intro a _; rfl
    | cons x L ih =>
      intro a hL
      rw [List.foldlM_cons, h x a (hL x (by simp)).1 (hL x (by simp)).2]
      exact ih _ (fun k hk => hL k (by simp [hk]))
  exact key _ _ (fun k hk => mem_upto.1 hk)

/-- An index tuple with one position replaced. -/
def setAt (idx : Idx) (a : ℕ) (v : ℤ) : Idx := idx.set a v

theorem InShape.getElem? {idx dims : List ℤ} (h : InShape idx dims) (i : ℕ) (x d : ℤ)
    (hx : idx[i]? = some x) (hd : dims[i]? = some d) : 0 ≤ x ∧ x < d := by
  induction h generalizing i with
  | nil => simp at hx
  | cons h1 _ ih =>
    cases i with
    | zero =>
      simp only [List.getElem?_cons_zero, Option.some.injEq] at hx hd
      subst hx hd; exact h1
    | succ i => exact ih i (by simpa using hx) (by simpa using hd)

theorem inShape_iff {idx dims : List ℤ} :
    InShape idx dims ↔ idx.length = dims.length ∧
      ∀ i < dims.length, 0 ≤ idx.getD i 0 ∧ idx.getD i 0 < dims.getD i 0 := by
  constructor
  · intro h
    refine ⟨h.length, fun i hi => ?_⟩
    have hi' : i < idx.length := by rw [h.length]; exact hi
    apply h.getElem? i
    · rw [List.getD_eq_getElem?_getD]; simp [hi']
    · rw [List.getD_eq_getElem?_getD]; simp [hi]
  · rintro ⟨hl, h⟩
    unfold InShape
    rw [List.forall₂_iff_get]
    refine ⟨hl, fun i h1 h2 => ?_⟩
    have := h i h2
    rw [List.getD_eq_getElem?_getD, List.getD_eq_getElem?_getD] at this
    simpa [h1, h2] using this

end Verif.Lower
