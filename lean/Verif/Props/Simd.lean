import Verif.Krnl.SimdLemmas

/-!
Properties of the SIMD loops of element-wise operators.
-/

namespace Verif.Props

open Verif.Krnl

/-! ### C57: SIMD element-wise loops -/

/-- Specification: the value an input contributes at index `i`. -/
def inputAt {R : Type*} (h : Heap R) (i : ℤ) : SIn → Option R
  | .absent => none
  | .scalar b off => some ((h b).data off)
  | .vec b off => some ((h b).data (off + i))

theorem inputAt_eq {R : Type*} (h : Heap R) (i : ℤ) (s : SIn) : SIn.val h i s = inputAt h i s := by
  cases s <;> rfl

/-- `n` rounded up to a multiple of `VL`. -/
def roundUp (n : ℤ) (VL : ℕ) : ℤ := (n + (VL - 1)) / VL * VL

/-- Indices up to which a loop over `n` elements computes: whole vectors when the loop
was declared to have no scalar remainder. -/
def computed (n : ℤ) (VL : ℕ) (fullySimd : Bool) : ℤ :=
  if VL > 1 ∧ fullySimd = true then roundUp n VL else n

/-- Every index of the loop is computed exactly from the original inputs, whatever the
vector length, the bounds (known or not at compile time) and the remainder; inputs may
be the buffers of the outputs (in-place execution); nothing outside of the computed
indices of the outputs is modified; no access is out of bounds. -/
theorem C57_simd_loop {R : Type*} (ins : List SIn) (outs : List (SOut R)) (h : Heap R) (lb : ℤ)
    (trip : IE) (VL : ℕ) (fullySimd : Bool) (ht : 0 ≤ trip.val)
    (hs : ∀ b off, SIn.scalar b off ∈ ins →
      0 ≤ off ∧ off < (h b).size ∧ ∀ o ∈ outs, o.buf ≠ b)
    (hv : ∀ b off, SIn.vec b off ∈ ins →
      0 ≤ off + lb ∧ off + lb + computed trip.val VL fullySimd ≤ (h b).size ∧
      ∀ o ∈ outs, o.buf = b → o.off = off)
    (ho : ∀ o ∈ outs, 0 ≤ o.off + lb ∧
      o.off + lb + computed trip.val VL fullySimd ≤ (h o.buf).size)
    (hd : (outs.map SOut.buf).Nodup) :
    ∃ h', simdIterate ins outs lb trip VL fullySimd h = some h' ∧
      (∀ o ∈ outs, ∀ i, lb ≤ i → i < lb + trip.val →
        (h' o.buf).data (o.off + i) = o.f (ins.map (inputAt h i))) ∧
      (∀ b y, (∀ o ∈ outs, o.buf = b →
          ¬ (lb ≤ y - o.off ∧ y - o.off < lb + computed trip.val VL fullySimd)) →
        (h' b).data y = (h b).data y) := by
  have hhi : simdHi lb trip.val VL fullySimd = lb + computed trip.val VL fullySimd := by
    unfold simdHi computed roundUp; split <;> rfl
  have hge : trip.val ≤ computed trip.val VL fullySimd := by
    unfold computed
    split
    · rename_i hc
      unfold roundUp
      have hdm := Int.mul_ediv_add_emod (trip.val + (VL - 1)) VL
      have hm1 := Int.emod_lt_of_pos (trip.val + (VL - 1)) (by omega : (0 : ℤ) < VL)
      rw [mul_comm] at hdm
      omega
    · exact le_refl _
  refine ⟨_, simdIterate_spec ht ⟨hs, ?_, ?_, hd⟩, ?_, ?_⟩
  · rw [hhi]; intro b off hm; have := hv b off hm; exact ⟨this.1, by omega, this.2.2⟩
  · rw [hhi]; intro o hm; have := ho o hm; omega
  · intro o hm i hi0 hi
    have hf : outs.find? (fun p => p.buf = o.buf) = some o := by
      clear ho hv hs
      induction outs with
      | nil => simp at hm
      | cons p ps ih =>
        rw [List.map_cons, List.nodup_cons] at hd
        rcases List.mem_cons.1 hm with rfl | hm'
        · simp
        · rw [List.find?_cons_of_neg]
          · exact ih hd.2 hm'
          · simp only [decide_eq_true_eq]
            intro e
            exact hd.1 (e ▸ List.mem_map_of_mem hm')
    simp only [simdDone, hf]
    rw [if_pos ⟨by omega, by omega⟩]
    congr 1
    refine List.map_congr_left fun s _ => ?_
    rw [inputAt_eq]; congr 1; omega
  · intro b y hy
    simp only [simdDone]
    cases hf : outs.find? (fun o => o.buf = b) with
    | none => rfl
    | some o =>
      have hb : o.buf = b := by simpa using List.find?_some hf
      simp only
      rw [if_neg]
      rw [hhi]
      exact hy o (List.mem_of_find?_eq_some hf) hb

/-- Ten elements of a buffer added in place to a scalar, by vectors of four and a scalar
remainder of two: the hypotheses hold. -/
example (f : List (Option ℤ) → ℤ) (h : Heap ℤ) (h0 : (h 0).size = 10) (h1 : (h 1).size = 1) :
    ∃ h', simdIterate [.vec 0 0, .scalar 1 0] [⟨0, 0, f⟩] 0 ⟨10, false⟩ 4 false h = some h' ∧
      (h' 0).data 9 = f [some ((h 0).data 9), some ((h 1).data 0)] := by
  obtain ⟨h', e, h2, _⟩ := C57_simd_loop [.vec 0 0, .scalar 1 0] [⟨0, 0, f⟩] h 0 ⟨10, false⟩ 4 false
    (by decide)
    (fun b off hm => by
      simp at hm; obtain ⟨rfl, rfl⟩ := hm; simp [h1])
    (fun b off hm => by
      simp at hm; obtain ⟨rfl, rfl⟩ := hm; simp [h0, computed])
    (fun o ho => by simp at ho; subst ho; simp [h0, computed])
    (by simp)
  refine ⟨h', e, ?_⟩
  have := h2 ⟨0, 0, f⟩ (by simp) 9 (by decide) (by decide)
  simpa [inputAt] using this

/-- A loop declared to have no remainder without permission to compute beyond the end
has a trip count that is a multiple of the vector length, whatever the sizes known
only at run time. -/
theorem C57_simd_only (archVL unroll0 : ℕ) (avgOk isStatic : Bool) (staticSize dynSize : ℕ)
    (hu : 0 < unroll0)
    (h : (simdUnroll archVL unroll0 avgOk false isStatic staticSize).2 = true) :
    (simdUnroll archVL unroll0 avgOk false isStatic staticSize).1 ∣ staticSize * dynSize :=
  Dvd.dvd.mul_right ((simdUnroll_spec archVL unroll0 avgOk false isStatic staticSize hu).2 h rfl) _

example : simdUnroll 4 8 true false true 48 = (32, false) ∧
    simdUnroll 4 8 true false true 64 = (32, true) ∧
    simdUnroll 4 8 true false true 24 = (24, true) ∧
    simdUnroll 4 8 true true true 10 = (12, true) := by decide

/-- The padded allocation of an output holds the output extended to whole vectors, for
every element width (also widths that are not whole bytes). -/
theorem C57_output_padding (staticShape : Bool) (staticSize dynSize VL bits : ℕ) (hVL : 0 < VL)
    (hs : staticShape = true → dynSize = 1) :
    (roundUp ((staticSize * dynSize : ℕ) : ℤ) VL) * bits ≤
      paddedBits staticShape staticSize dynSize VL bits := by
  have := paddedBits_spec staticShape staticSize dynSize VL bits hVL hs
  unfold roundUp
  have e : (((staticSize * dynSize : ℕ) : ℤ) + ((VL : ℤ) - 1)) =
      ((staticSize * dynSize + (VL - 1) : ℕ) : ℤ) := by
    push_cast [Nat.cast_sub (by omega : 1 ≤ VL)]; ring
  rw [e]
  exact_mod_cast this

/-- A flattened element-wise operator over `n` elements: with the vector length and mode
chosen by the compiler and the padded output, every element is computed and no access
is out of bounds, provided that, when the loop may compute beyond the end, the vector
inputs are padded as well.  The full property has no condition on the inputs; it is
false (`C57_overcompute_false`). -/
theorem C57_flat_elementwise_partial {R : Type*} (archVL unroll0 : ℕ)
    (avgOk over isStatic : Bool) (n : ℕ) (lit : Bool)
    (hu : 0 < unroll0) (ins : List SIn) (out : SOut R) (h : Heap R)
    (hoff : out.off = 0)
    (hout : (roundUp n (simdUnroll archVL unroll0 avgOk over isStatic n).1) ≤ (h out.buf).size)
    (hsc : ∀ b off, SIn.scalar b off ∈ ins → 0 ≤ off ∧ off < (h b).size ∧ out.buf ≠ b)
    (hvec : ∀ b off, SIn.vec b off ∈ ins → off = 0 ∧
      (if over then roundUp n (simdUnroll archVL unroll0 avgOk over isStatic n).1 else n) ≤
        (h b).size) :
    ∃ h', simdIterate ins [out] 0 ⟨n, lit⟩ (simdUnroll archVL unroll0 avgOk over isStatic n).1
        (simdUnroll archVL unroll0 avgOk over isStatic n).2 h = some h' ∧
      ∀ i : ℤ, 0 ≤ i → i < n → (h' out.buf).data i = out.f (ins.map (inputAt h i)) := by
  obtain ⟨hpos, hdiv⟩ := simdUnroll_spec archVL unroll0 avgOk over isStatic n hu
  generalize hr : simdUnroll archVL unroll0 avgOk over isStatic n = r at *
  obtain ⟨VL, simdOnly⟩ := r
  simp only at hpos hdiv hout hvec ⊢
  have hrd : (n : ℤ) ≤ roundUp n VL := by
    unfold roundUp
    have hdm := Int.mul_ediv_add_emod ((n : ℤ) + (VL - 1)) VL
    have hm1 := Int.emod_lt_of_pos ((n : ℤ) + (VL - 1)) (by omega : (0 : ℤ) < VL)
    rw [mul_comm] at hdm
    omega
  have hcomp : computed n VL simdOnly ≤ (if over then roundUp n VL else n) := by
    unfold computed
    cases ho : over
    · simp only [Bool.false_eq_true, if_false]
      split
      · rename_i hc
        obtain ⟨q, rfl⟩ := hdiv hc.2 ho
        unfold roundUp
        have hv : (0 : ℤ) < VL := by omega
        have : (((VL * q : ℕ) : ℤ) + ((VL : ℤ) - 1)) / VL = q := by
          push_cast
          rw [Int.add_comm, Int.add_mul_ediv_left _ _ (by omega),
            Int.ediv_eq_zero_of_lt (by omega) (by omega)]
          simp
        rw [this]; push_cast; exact le_of_eq (mul_comm _ _)
      · exact le_refl _
    · simp only [if_true]
      split
      · exact le_refl _
      · exact hrd
  have hco : computed n VL simdOnly ≤ roundUp n VL := by
    refine le_trans hcomp ?_
    split
    · exact le_refl _
    · exact hrd
  obtain ⟨h', e, h1, _⟩ := C57_simd_loop ins [out] h 0 ⟨n, lit⟩ VL simdOnly (by simp)
    (fun b off hm => by
      obtain ⟨a1, a2, a3⟩ := hsc b off hm
      exact ⟨a1, a2, fun o ho => by rw [List.mem_singleton.1 ho]; exact a3⟩)
    (fun b off hm => by
      obtain ⟨a1, a2⟩ := hvec b off hm
      refine ⟨by omega, by simp only; omega, fun o ho _ => ?_⟩
      rw [List.mem_singleton.1 ho, hoff, a1])
    (fun o ho => by rw [List.mem_singleton.1 ho]; simp only; omega)
    (by simp)
  refine ⟨h', e, fun i hi0 hi => ?_⟩
  have := h1 out (by simp) i hi0 (by simpa using hi)
  rwa [hoff, zero_add] at this

/-- An operator on a constant of 10 elements: the constant has a defining operation, so
computing beyond the end is allowed, the vector length becomes 12, and the vector read
of the constant, which is not padded, runs past its end. -/
theorem C57_overcompute_false :
    simdUnroll 4 8 true true true 10 = (12, true) ∧
    ∀ (f : List (Option ℤ) → ℤ) (h : Heap ℤ), (h 0).size = 10 → (h 1).size = 12 →
      simdIterate [.vec 0 0] [⟨1, 0, f⟩] 0 ⟨10, true⟩ 12 true h = none := by
  refine ⟨by decide, ?_⟩
  intro f h h0 h1
  have hst : starts 0 10 12 = [0] := by decide
  unfold simdIterate forLoop
  simp only [show (12 : ℕ) > 1 by omega, if_true, zero_add, hst]
  have : (List.range 12).mapM (fun (l : ℕ) => [SIn.vec 0 0].mapM (SIn.load h ((0 : ℤ) + l))) = none := by
    have : List.range 12 = [0, 1, 2, 3, 4, 5, 6, 7, 8, 9, 10, 11] := by decide
    rw [this]
    simp [SIn.load, h0]
  rw [List.foldlM_cons]
  unfold simdStep
  rw [this]
  rfl

end Verif.Props
