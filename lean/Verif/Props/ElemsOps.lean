import Verif.Elems.GatherLemmas
import Verif.Elems.PadLemmas

/-! # Properties of constant operations that move blocks (C24–C28) -/

namespace Verif.Props

open Verif Verif.Elems

variable {W : Type}

/-! ## C24: split and concat -/

/-- C24, splitting: pieces along an axis of extent `A > 0`, one per size, each holding its window of
the input. The sizes may be zero. What is missing: `A = 0` with two or more pieces
(`C24_split_empty_false`). -/
theorem C24_split_partial {e : Elms W} (hB : Built e) {pre post : List Nat} {A : Nat}
    (hs : e.shape = pre ++ A :: post) (sizes : List Nat) (hsum : sizes.sum = A) (hA : 0 < A) :
    ∃ ps, split e pre.length sizes = some ps ∧ ps.length = sizes.length ∧
      ∀ (i : Nat) p n, ps[i]? = some p → sizes[i]? = some n →
        Built p ∧ p.shape = pre ++ n :: post ∧
        ∀ ip a jp, InBounds pre ip → a < n → InBounds post jp →
          value p (ip ++ a :: jp) = value e (ip ++ ((sizes.take i).sum + a) :: jp) :=
  split_spec hB hs sizes hsum (Or.inl hA)

/-- Witness: a 2×3 constant split into columns 1 + 2. -/
example : Built (fromWideNums [2, 3] [1, 2, 3, 4, 5, 6]) ∧
    (split (fromWideNums [2, 3] [1, 2, 3, 4, 5, 6]) 1 [1, 2]).map
      (fun ps => ps.map fun p => (p.shape, p.wideNums)) =
      some [([2, 1], some [1, 4]), ([2, 2], some [2, 3, 5, 6])] :=
  ⟨Built.ofBuffer _ _ rfl, by decide +kernel⟩

/-- C24 fails for an axis of extent zero split in two: the code divides by the extent. -/
theorem C24_split_empty_false :
    ∃ (e : Elms Nat) (sizes : List Nat), Built e ∧ e.shape = [] ++ 0 :: [] ∧ sizes.sum = 0 ∧
      split e 0 sizes = none :=
  ⟨fromWideNums [0] [], [0, 0], Built.ofBuffer _ _ rfl, rfl, rfl, by decide +kernel⟩

/-- C24, concatenating: input `i` occupies the window that starts after the inputs before it. -/
theorem C24_concat {es : List (Elms W)} {pre post : List Nat} (hB : ∀ e ∈ es, Built e)
    (hne : es ≠ []) (ns : List Nat) (hsh : es.map (·.shape) = ns.map fun n => pre ++ n :: post) :
    ∃ r, concat es pre.length = some r ∧ Built r ∧ r.shape = pre ++ ns.sum :: post ∧
      ∀ (i : Nat) e n, es[i]? = some e → ns[i]? = some n →
        ∀ ip a jp, InBounds pre ip → a < n → InBounds post jp →
          value r (ip ++ ((ns.take i).sum + a) :: jp) = value e (ip ++ a :: jp) :=
  concat_spec hB hne ns hsh

/-- Witness: concatenating a 2×1 splat and a transposed 2×2 constant along the columns. -/
example : Built (splat [2, 1] 9) ∧ Built (transpose (fromWideNums [2, 2] [1, 2, 3, 4]) [1, 0]) ∧
    (concat [splat [2, 1] 9, transpose (fromWideNums [2, 2] [1, 2, 3, 4]) [1, 0]] 1).map
      (fun p => (p.shape, p.wideNums)) = some ([2, 3], some [9, 1, 3, 9, 2, 4]) :=
  ⟨Built.ofSplat _ _, (Built.ofBuffer _ _ rfl).transpose _ (by decide), by decide +kernel⟩

/-- C24, round trip: concatenating the pieces of a split gives a constant with the same shape and the
same elements. -/
theorem C24_split_concat_partial {e : Elms W} (hB : Built e) {pre post : List Nat} {A : Nat}
    (hs : e.shape = pre ++ A :: post) (sizes : List Nat) (hsum : sizes.sum = A) (hA : 0 < A) :
    ∃ ps r, split e pre.length sizes = some ps ∧ concat ps pre.length = some r ∧
      r.shape = e.shape ∧ ∀ idx, InBounds e.shape idx → value r idx = value e idx := by
  obtain ⟨ps, p1, p2, p3⟩ := C24_split_partial hB hs sizes hsum hA
  have hps : ps.map (·.shape) = sizes.map fun n => pre ++ n :: post := by
    apply List.ext_getElem (by simp [p2])
    intro i h1 h2
    simp only [List.getElem_map]
    simp only [List.length_map] at h1 h2
    exact (p3 i _ _ (List.getElem?_eq_getElem h1) (List.getElem?_eq_getElem h2)).2.1
  have hne : ps ≠ [] := by
    intro h
    rw [h] at p2
    have : sizes = [] := List.length_eq_zero_iff.1 (by simpa using p2.symm)
    rw [this] at hsum
    simp at hsum; omega
  obtain ⟨r, r1, r2, r3, r4⟩ := C24_concat (es := ps) (by
    intro p hp
    obtain ⟨i, hi, rfl⟩ := List.getElem_of_mem hp
    exact (p3 i _ _ (List.getElem?_eq_getElem hi)
      (List.getElem?_eq_getElem (by omega : i < sizes.length))).1) hne sizes hps
  refine ⟨ps, r, p1, r1, by rw [r3, hsum, hs], fun idx hi => ?_⟩
  rw [hs] at hi
  obtain ⟨ip, a, jp, rfl, h1, h2, h3⟩ := InBounds.splitAxis hi
  obtain ⟨i, n, b, g1, g2, g3⟩ := locate sizes a (by omega)
  have hil := (List.getElem?_eq_some_iff.1 g1).1
  have hpi := List.getElem?_eq_getElem (l := ps) (i := i) (by omega)
  rw [g3, r4 i _ n hpi g1 ip b jp h1 g2 h3, (p3 i _ n hpi g1).2.2 ip b jp h1 g2 h3]

/-! ## C25: slice -/

/-- C25: when `start + i * step` is an index of the axis for every output coordinate `i` (steps of
either sign), slicing succeeds and reads exactly those elements. -/
theorem C25_slice {e : Elms W} (hB : Built e) {shape : List Nat} {starts steps : List Int}
    (hl : shape.length = e.shape.length) (h1 : starts.length = e.shape.length)
    (h2 : steps.length = e.shape.length)
    (hin : ∀ a, a < e.shape.length → ∀ i : Nat, i < shape.getD a 0 →
      0 ≤ starts.getD a 0 + i * steps.getD a 0 ∧
      starts.getD a 0 + i * steps.getD a 0 < e.shape.getD a 0) :
    ∃ r, slice e shape starts steps = some r ∧ Built r ∧ r.shape = shape ∧
      ∀ idx, InBounds shape idx → ∀ k : List Nat, k.length = e.shape.length →
        (∀ a, a < e.shape.length →
          (k.getD a 0 : Int) = starts.getD a 0 + idx.getD a 0 * steps.getD a 0) →
        value r idx = value e k := by
  have hget : ∀ (starts steps : List Int) (idx : List Nat) (n : Nat), starts.length = n →
      steps.length = n → idx.length = n → ∀ a, a < n →
      (sliceIdx starts steps idx).getD a 0 = starts.getD a 0 + idx.getD a 0 * steps.getD a 0 := by
    intro starts steps idx n g1 g2 g3
    induction n generalizing starts steps idx with
    | zero => intro a ha; omega
    | succ n ih =>
      match starts, steps, idx with
      | [], _, _ => simp at g1
      | _, [], _ => simp at g2
      | _, _, [] => simp at g3
      | x :: xs, s :: ss, i :: is =>
        intro a ha
        cases a with
        | zero => simp [sliceIdx]
        | succ a =>
          simp only [sliceIdx, List.getD_cons_succ]
          exact ih xs ss is (by simpa using g1) (by simpa using g2) (by simpa using g3) a (by omega)
  have hcoord : ∀ idx, InBounds shape idx → ∀ a, a < shape.length → idx.getD a 0 < shape.getD a 0 := by
    intro idx hi a ha
    have := hi.get_lt a ha
    rw [getD_of_lt _ (by rw [hi.length]; exact ha), getD_of_lt _ ha]
    exact this
  have hk : ∀ idx, InBounds shape idx → ∃ k, sliceIdx starts steps idx = k.map Int.ofNat ∧
      InBounds e.shape k := by
    intro idx hi
    have hlen := sliceIdx_length h1 h2 (hi.length.trans hl)
    have hnn : ∀ a, a < e.shape.length → 0 ≤ (sliceIdx starts steps idx).getD a 0 ∧
        (sliceIdx starts steps idx).getD a 0 < e.shape.getD a 0 := by
      intro a ha
      rw [hget _ _ _ _ h1 h2 (hi.length.trans hl) a ha]
      exact hin a ha _ (hcoord idx hi a (by omega))
    refine ⟨(sliceIdx starts steps idx).map Int.toNat, ?_, ?_⟩
    · apply List.ext_getElem (by simp)
      intro a g1 g2
      have := hnn a (by omega)
      rw [getD_of_lt _ g1] at this
      simp only [List.getElem_map, Int.ofNat_eq_natCast]
      rw [Int.toNat_of_nonneg this.1]
    · rw [inBounds_iff_get]
      refine ⟨by simp [hlen], fun a ha => ?_⟩
      have := hnn a ha
      rw [getD_of_lt _ (by omega), getD_of_lt _ ha] at this
      simp only [List.getElem_map]
      omega
  obtain ⟨r, r1, r2, r3, r4⟩ := slice_spec hB hl h1 h2 hk
  refine ⟨r, r1, r2, r3, fun idx hi k hkl hkv => r4 idx k hi ?_⟩
  have hlen := sliceIdx_length h1 h2 (hi.length.trans hl)
  apply List.ext_getElem (by simp [hlen, hkl])
  intro a g1 g2
  have := hkv a (by omega)
  rw [← hget _ _ _ _ h1 h2 (hi.length.trans hl) a (by omega), getD_of_lt _ g1,
    getD_of_lt _ (by omega)] at this
  simp only [List.getElem_map, Int.ofNat_eq_natCast]
  omega

/-- Witness: reversing rows and taking every second column. -/
example : (slice (fromWideNums [2, 3] [1, 2, 3, 4, 5, 6]) [2, 2] [1, 0] [-1, 2]).bind
    (·.wideNums) = some [4, 6, 1, 3] := by decide +kernel

/-! ## C26: pad -/

/-- C26: the result extent on axis `a` is `left + d + right`; an element is the input element at the
index minus the left pads when that is an input index, and otherwise the pad value. Success of the
model includes that the output cursor ends exactly at the end of the output. -/
theorem C26_pad {e : Elms W} (hB : Built e) {left right : List Nat} (v : W)
    (hl : left.length = e.shape.length) (hr : right.length = e.shape.length) :
    ∃ p, pad e left right v = some p ∧ Built p ∧ p.shape.length = e.shape.length ∧
      (∀ a, a < e.shape.length →
        p.shape.getD a 0 = left.getD a 0 + e.shape.getD a 0 + right.getD a 0) ∧
      (∀ k idx, InBounds e.shape k → idx.length = e.shape.length →
        (∀ a, a < e.shape.length → idx.getD a 0 = left.getD a 0 + k.getD a 0) →
        value p idx = value e k) ∧
      ∀ idx, InBounds p.shape idx →
        (∃ a, a < e.shape.length ∧
          ¬ (left.getD a 0 ≤ idx.getD a 0 ∧ idx.getD a 0 < left.getD a 0 + e.shape.getD a 0)) →
        value p idx = some v := by
  obtain ⟨p, p1, p2, p3, p4⟩ := pad_spec hB v hl hr
  have key : ∀ (s l r idx k : List Nat), l.length = s.length → r.length = s.length →
      idx.length = s.length → InBounds s k →
      (∀ a, a < s.length → idx.getD a 0 = l.getD a 0 + k.getD a 0) →
      unpad (s.zip (l.zip r)) idx = some k ∧
      InBounds ((s.zip (l.zip r)).map fun a => a.1 + a.2.1 + a.2.2) idx := by
    intro s
    induction s with
    | nil =>
      intro l r idx k _ _ h3 h4 _
      rw [List.length_nil, List.length_eq_zero_iff] at h3
      subst h3
      simp [unpad, inBounds_nil_left.1 h4]
    | cons d s ih =>
      intro l r idx k g1 g2 g3 g4 g5
      match l, r, idx, k with
      | [], _, _, _ => simp at g1
      | _, [], _, _ => simp at g2
      | _, _, [], _ => simp at g3
      | _, _, _, [] => simp at g4
      | x :: l, y :: r, i :: idx, c :: k =>
        obtain ⟨g6, g7⟩ := inBounds_cons.1 g4
        have h0 := g5 0 (by simp)
        simp only [List.getD_cons_zero] at h0
        obtain ⟨q1, q2⟩ := ih l r idx k (by simpa using g1) (by simpa using g2) (by simpa using g3) g7
          (fun a ha => by simpa using g5 (a + 1) (by simpa using ha))
        simp only [List.zip_cons_cons, unpad, List.map_cons, inBounds_cons]
        rw [if_pos (by omega), q1]
        exact ⟨by simp; omega, by omega, q2⟩
  have key2 : ∀ (s l r idx : List Nat), l.length = s.length → r.length = s.length →
      idx.length = s.length →
      (∃ a, a < s.length ∧ ¬ (l.getD a 0 ≤ idx.getD a 0 ∧ idx.getD a 0 < l.getD a 0 + s.getD a 0)) →
      unpad (s.zip (l.zip r)) idx = none := by
    intro s
    induction s with
    | nil => rintro l r idx _ _ _ ⟨a, ha, _⟩; simp at ha
    | cons d s ih =>
      intro l r idx g1 g2 g3 g4
      match l, r, idx with
      | [], _, _ => simp at g1
      | _, [], _ => simp at g2
      | _, _, [] => simp at g3
      | x :: l, y :: r, i :: idx =>
        simp only [List.zip_cons_cons, unpad]
        obtain ⟨a, ha, hn⟩ := g4
        cases a with
        | zero =>
          simp only [List.getD_cons_zero] at hn
          rw [if_neg hn]
        | succ a =>
          rw [ih l r idx (by simpa using g1) (by simpa using g2) (by simpa using g3)
            ⟨a, by simpa using ha, by simpa using hn⟩]
          simp
  have hplen : p.shape.length = e.shape.length := by rw [p3]; simp; omega
  refine ⟨p, p1, p2, hplen, ?_, ?_, ?_⟩
  · intro a ha
    rw [p3, getD_of_lt _ (by simp; omega), getD_of_lt _ (by omega), getD_of_lt _ ha,
      getD_of_lt _ (by omega)]
    simp; omega
  · intro k idx hk hi hv
    obtain ⟨q1, q2⟩ := key e.shape left right idx k hl hr hi hk hv
    rw [p4 idx (by rw [p3]; exact q2), q1]
  · intro idx hi hv
    rw [p4 idx hi, key2 e.shape left right idx hl hr (by rw [hi.length, hplen]) hv]

/-- Witness: padding a 2×2 constant by one row above and one column on the right. -/
example : (pad (fromWideNums [2, 2] [1, 2, 3, 4]) [1, 0] [0, 1] 7).bind
    (fun p => p.wideNums.map fun l => (p.shape, l)) = some ([3, 3], [7, 7, 7, 1, 2, 7, 3, 4, 7]) := by
  decide +kernel

/-! ## C27: gather -/

/-- C27: for indices in `[-A, A)`, gathering picks along the axis the element at the index, counted
from the end when negative. -/
theorem C27_gather {e : Elms W} (hB : Built e) {ix : Elms Int} (hI : Built ix)
    {pre post : List Nat} {A : Nat} (hs : e.shape = pre ++ A :: post)
    (hr : ∀ q i, InBounds ix.shape q → value ix q = some i → -(A : Int) ≤ i ∧ i < A) :
    ∃ r, gather e ix pre.length = some r ∧ Built r ∧ r.shape = pre ++ ix.shape ++ post ∧
      ∀ ip q jp i, InBounds pre ip → InBounds ix.shape q → InBounds post jp → value ix q = some i →
        value r (ip ++ q ++ jp) =
          value e (ip ++ (if i < 0 then i + A else i).toNat :: jp) :=
  gather_spec hB hI hs hr

/-- Witness: gathering columns [-1, 0] of a 2×3 constant. -/
example : (gather (fromWideNums [2, 3] [1, 2, 3, 4, 5, 6]) (fromWideNums [2] [-1, 0]) 1).bind
    (fun p => p.wideNums.map fun l => (p.shape, l)) = some ([2, 2], [3, 1, 6, 4]) := by
  decide +kernel

/-! ## C28: scatterND -/

/-- C28, for non-negative indices: `tup o` is the index tuple at position `o` of the indices. An
element whose leading coordinates match no tuple keeps its value; one that is matched holds the
update at the last position (in row-major order) with that tuple. What is missing: negative indices
(`C28_negative_false`). -/
theorem C28_scatterND_partial {e upd : Elms W} {ix : Elms Int} (hB : Built e) (hU : Built upd)
    (hI : Built ix) {dims slice outer : List Nat} (hs : e.shape = dims ++ slice)
    (hus : upd.shape = outer ++ slice) (his : ix.shape = outer ++ [dims.length])
    (tup : List Nat → List Nat)
    (htup : ∀ o, InBounds outer o → InBounds dims (tup o) ∧
      ∀ c, c < dims.length → value ix (o ++ [c]) = some ((tup o).getD c 0 : Int)) :
    ∃ r, scatterND e ix upd = some r ∧ Built r ∧ r.shape = e.shape ∧
      (∀ t j, InBounds dims t → InBounds slice j → (∀ o, InBounds outer o → tup o ≠ t) →
        value r (t ++ j) = value e (t ++ j)) ∧
      ∀ o j, InBounds outer o → InBounds slice j →
        (∀ o', InBounds outer o' → tup o' = tup o → rowMajor outer o' ≤ rowMajor outer o) →
        value r (tup o ++ j) = value upd (o ++ j) := by
  refine scatterND_spec hB hU hI hs hus his tup fun o ho => ?_
  obtain ⟨h1, h2⟩ := htup o ho
  refine ⟨?_, h1⟩
  unfold tupleAt
  rw [mapM_some (g := fun c => ((tup o).getD c 0 : Int)) fun c hc => h2 c (by simpa using hc)]
  congr 1
  apply List.ext_getElem (by simp [h1.length])
  intro c g1 g2
  simp only [List.getElem_map, List.getElem_range]
  rw [getD_of_lt _ (by simpa using g2)]
  rfl

/-- Witness: updating rows 2 and 0 of a 3×2 constant. -/
example : (scatterND (fromWideNums [3, 2] [1, 2, 3, 4, 5, 6]) (fromWideNums [2, 1] [2, 0])
    (fromWideNums [2, 2] [10, 11, 12, 13])).bind (·.wideNums) = some [12, 13, 3, 4, 10, 11] := by
  decide +kernel

/-- C28 fails for negative indices, which ONNX allows: index -1 into `[1, 2, 3]` addresses memory
outside the constant instead of the last element. -/
theorem C28_negative_false :
    scatterND (fromWideNums [3] [1, 2, 3]) (fromWideNums [1, 1] [-1]) (fromWideNums [1] [9])
      = none := by decide +kernel

/-- C28 fails silently as well: tuple (1, -1) into a 2×3 constant, which ONNX reads as (1, 2), changes
element (0, 2). -/
theorem C28_negative_wrong_element_false :
    ∃ r, scatterND (fromWideNums [2, 3] [1, 2, 3, 4, 5, 6]) (fromWideNums [1, 2] [1, -1])
        (fromWideNums [1] [9]) = some r ∧
      value r [1, 2] = some 6 ∧ value r [0, 2] = some 9 :=
  ⟨_, rfl, by decide +kernel, by decide +kernel⟩

end Verif.Props
