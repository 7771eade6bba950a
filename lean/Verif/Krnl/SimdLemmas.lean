import Verif.Krnl.SimdModel
import Verif.Krnl.MatmulLemmas

namespace Verif.Krnl

variable {R : Type*}

/-- Value of one lane of one input. -/
def SIn.val (h : Heap R) (i : ℤ) : SIn → Option R
  | .absent => none
  | .scalar b off => some ((h b).data off)
  | .vec b off => some ((h b).data (off + i))

/-- Memory once the indices of `[lo, hi)` have been computed from the memory `h`. -/
def simdDone (ins : List SIn) (outs : List (SOut R)) (h : Heap R) (lo hi : ℤ) : Heap R := fun b =>
  ⟨(h b).size, fun y =>
    match outs.find? (fun o => o.buf = b) with
    | some o => if lo ≤ y - o.off ∧ y - o.off < hi then
        o.f (ins.map fun s => SIn.val h (y - o.off) s) else (h b).data y
    | none => (h b).data y⟩

/-- Accesses at indices of `[lo, hi)` are legal, the outputs are different buffers, and
an input that is also an output is read at the index that is written. -/
structure SimdOk (ins : List SIn) (outs : List (SOut R)) (h : Heap R) (lo hi : ℤ) : Prop where
  scalar : ∀ b off, SIn.scalar b off ∈ ins → 0 ≤ off ∧ off < (h b).size ∧ ∀ o ∈ outs, o.buf ≠ b
  vec : ∀ b off, SIn.vec b off ∈ ins → 0 ≤ off + lo ∧ off + hi ≤ (h b).size ∧
    ∀ o ∈ outs, o.buf = b → o.off = off
  out : ∀ o ∈ outs, 0 ≤ o.off + lo ∧ o.off + hi ≤ (h o.buf).size
  distinct : (outs.map SOut.buf).Nodup

theorem load_done {ins : List SIn} {outs : List (SOut R)} {h : Heap R} {lo hi : ℤ}
    (ok : SimdOk ins outs h lo hi) {x i : ℤ} (hlo : lo ≤ i) (hx : x ≤ i) (hi' : i < hi)
    {s : SIn} (hs : s ∈ ins) :
    SIn.load (simdDone ins outs h lo x) i s = some (SIn.val h i s) := by
  cases s with
  | absent => rfl
  | scalar b off =>
    obtain ⟨h1, h2, h3⟩ := ok.scalar b off hs
    unfold SIn.load SIn.val
    simp only
    rw [if_pos (show 0 ≤ off ∧ off < (simdDone ins outs h lo x b).size from ⟨h1, h2⟩)]
    simp only [simdDone]
    have : outs.find? (fun o => o.buf = b) = none := by
      rw [List.find?_eq_none]
      intro o ho; simpa using h3 o ho
    rw [this]
  | vec b off =>
    obtain ⟨h1, h2, h3⟩ := ok.vec b off hs
    unfold SIn.load SIn.val
    simp only
    rw [if_pos (show 0 ≤ off + i ∧ off + i < (simdDone ins outs h lo x b).size from
      ⟨by omega, by simp only [simdDone]; omega⟩)]
    simp only [simdDone]
    cases hf : outs.find? (fun o => o.buf = b) with
    | none => rfl
    | some o =>
      have hm := List.mem_of_find?_eq_some hf
      have hb : o.buf = b := by simpa using List.find?_some hf
      have := h3 o hm hb
      simp only
      rw [if_neg (by omega)]

theorem mapM_some {α β : Type*} (f : α → Option β) (g : α → β) (l : List α)
    (h : ∀ a ∈ l, f a = some (g a)) : l.mapM f = some (l.map g) := by
  induction l with
  | nil => rfl
  | cons a l ih =>
    rw [List.mapM_cons, h a (by simp), ih (fun b hb => h b (by simp [hb]))]
    rfl

/-- The stores of one step, output by output. -/
theorem stores_done (ins : List SIn) (outs0 : List (SOut R)) (h : Heap R) (lo : ℤ) (x : ℤ)
    (VL : ℕ) (hlo : lo ≤ x) :
    ∀ (outs : List (SOut R)) (pre : List (SOut R)), outs0 = pre ++ outs →
      (outs0.map SOut.buf).Nodup →
      (∀ o ∈ outs0, 0 ≤ o.off + x ∧ o.off + x + VL ≤ (h o.buf).size) →
      ∀ g : Heap R,
      (∀ b, (g b).size = (h b).size) →
      (∀ b y, (g b).data y = match pre.find? (fun o => o.buf = b) with
        | some _ => (simdDone ins outs0 h lo (x + VL) b).data y
        | none => (simdDone ins outs0 h lo x b).data y) →
      outs.foldlM (fun g o => vstoreBuf g o.buf (o.off + x)
        (((List.range VL).map fun (l : ℕ) => ins.map fun s => SIn.val h (x + l) s).map o.f)) g =
        some (simdDone ins outs0 h lo (x + VL)) := by
  intro outs
  induction outs with
  | nil =>
    intro pre he hnd hb g hg1 hg2
    simp only [List.foldlM_nil, Option.pure_def, Option.some.injEq]
    rw [List.append_nil] at he
    subst he
    funext b
    have h1 := hg1 b
    have h2 := hg2 b
    cases hgb : g b with
    | mk sz d =>
      rw [hgb] at h1 h2
      simp only at h1 h2
      simp only [simdDone]
      rw [Buf.mk.injEq]
      refine ⟨h1, ?_⟩
      funext y
      have := h2 y
      cases hf : outs0.find? (fun o => o.buf = b) with
      | none => simpa [hf, simdDone] using this
      | some o => simpa [hf, simdDone] using this
  | cons o outs ih =>
    intro pre he hnd hb g hg1 hg2
    have hmem : o ∈ outs0 := by rw [he]; simp
    obtain ⟨b1, b2⟩ := hb o hmem
    have hpre : pre.find? (fun p => p.buf = o.buf) = none := by
      rw [List.find?_eq_none]
      intro p hp
      simp only [decide_eq_true_eq]
      intro e
      rw [he, List.map_append, List.map_cons, List.nodup_append] at hnd
      exact hnd.2.2 p.buf (List.mem_map_of_mem hp) o.buf (by simp) e
    have hfo : outs0.find? (fun p => p.buf = o.buf) = some o := by
      rw [he, List.find?_append, hpre]
      simp
    rw [List.foldlM_cons]
    have hst : vstoreBuf g o.buf (o.off + x)
        (((List.range VL).map fun (l : ℕ) => ins.map fun s => SIn.val h (x + l) s).map o.f) =
        some (Function.update g o.buf ⟨(h o.buf).size,
          (simdDone ins outs0 h lo (x + VL) o.buf).data⟩) := by
      unfold vstoreBuf
      rw [if_pos ⟨b1, by simpa [hg1] using b2⟩]
      congr 2
      rw [Buf.mk.injEq]
      refine ⟨hg1 _, ?_⟩
      funext y
      simp only [List.length_map, List.length_range]
      have hg := hg2 o.buf y
      rw [hpre] at hg
      simp only at hg
      simp only [simdDone, hfo]
      by_cases hy : o.off + x ≤ y ∧ y < o.off + x + VL
      · rw [if_pos hy, if_pos ⟨by omega, by omega⟩]
        have hl : (y - (o.off + x)).toNat < VL := by omega
        rw [List.getElem?_map, List.getElem?_map, List.getElem?_range hl]
        simp only [Option.map_some, Option.getD_some]
        congr 1
        have : x + ((y - (o.off + x)).toNat : ℤ) = y - o.off := by omega
        rw [this]
      · rw [if_neg hy, hg]
        simp only [simdDone, hfo]
        by_cases h2 : lo ≤ y - o.off ∧ y - o.off < x
        · rw [if_pos h2, if_pos ⟨by omega, by omega⟩]
        · rw [if_neg h2, if_neg (by omega)]
    rw [hst]
    simp only [Option.bind_eq_bind, Option.bind_some]
    refine ih (pre ++ [o]) (by rw [he]; simp) hnd hb _ ?_ ?_
    · intro b
      by_cases e : b = o.buf
      · subst e; rw [Function.update_self]
      · rw [Function.update_of_ne e]; exact hg1 b
    · intro b y
      rw [List.find?_append]
      by_cases e : b = o.buf
      · subst e
        rw [Function.update_self, hpre]
        simp
      · rw [Function.update_of_ne e, hg2 b y]
        have : ([o] : List (SOut R)).find? (fun p => p.buf = b) = none := by
          simp [Ne.symm e]
        rw [this]
        cases pre.find? (fun p => p.buf = b) <;> rfl

theorem simdStep_done {ins : List SIn} {outs : List (SOut R)} {h : Heap R} {lo hi : ℤ}
    (ok : SimdOk ins outs h lo hi) {x : ℤ} {VL : ℕ} (hlo : lo ≤ x) (hx : x + VL ≤ hi) :
    simdStep ins outs VL x (simdDone ins outs h lo x) =
      some (simdDone ins outs h lo (x + VL)) := by
  unfold simdStep
  rw [mapM_some _ (fun (l : ℕ) => ins.map fun s => SIn.val h (x + l) s) (List.range VL) (by
    intro l hl
    rw [List.mem_range] at hl
    exact mapM_some _ _ _ fun s hs => load_done ok (by omega) (by omega) (by omega) hs)]
  simp only [Option.bind_some]
  refine stores_done ins outs h lo x VL hlo outs [] rfl ok.distinct ?_ _ (fun _ => rfl) ?_
  · intro o ho
    have := ok.out o ho
    omega
  · intro b y; rfl

theorem simdDone_empty (ins : List SIn) (outs : List (SOut R)) (h : Heap R) {lo hi : ℤ}
    (hle : hi ≤ lo) : simdDone ins outs h lo hi = h := by
  funext b
  cases hb : h b with
  | mk sz d =>
    simp only [simdDone, hb, Buf.mk.injEq, true_and]
    funext y
    cases outs.find? (fun o => o.buf = b) with
    | none => rfl
    | some o => simp only; rw [if_neg (by omega)]

/-- A loop of full vectors: `n` steps from `lo`. -/
theorem simd_loop {ins : List SIn} {outs : List (SOut R)} {h : Heap R} {lo hi : ℤ}
    (ok : SimdOk ins outs h lo hi) {VL : ℕ} (hVL : 0 < VL) :
    ∀ (n : ℕ) (x ub : ℤ), lo ≤ x → x + n * VL ≤ hi → ub ≤ x + n * VL → x + n * VL < ub + VL →
      forLoop x ub VL (simdStep ins outs VL) (simdDone ins outs h lo x) =
        some (simdDone ins outs h lo (x + n * VL)) := by
  intro n
  induction n with
  | zero =>
    intro x ub h1 h2 h3 h4
    unfold forLoop
    rw [starts_nil hVL (by simpa using h3)]
    simp
  | succ n ih =>
    intro x ub h1 h2 h3 h4
    push_cast at h2 h3 h4 ⊢
    rw [add_mul, one_mul] at h2 h3 h4 ⊢
    have hn : (0 : ℤ) ≤ n * VL := by positivity
    unfold forLoop
    rw [starts_cons hVL (by omega), List.foldlM_cons, simdStep_done ok h1 (by omega)]
    have := ih (x + VL) ub (by omega) (by omega) (by omega) (by omega)
    unfold forLoop at this
    simp only [Option.bind_eq_bind, Option.bind_some]
    rw [this]
    congr 2
    ring

theorem simd_scalar_loop {ins : List SIn} {outs : List (SOut R)} {h : Heap R} {lo hi : ℤ}
    (ok : SimdOk ins outs h lo hi) {x ub : ℤ} (h1 : lo ≤ x) (h2 : x ≤ ub) (h3 : ub ≤ hi) :
    forLoop x ub 1 (simdStep ins outs 1) (simdDone ins outs h lo x) =
      some (simdDone ins outs h lo ub) := by
  have := simd_loop ok (VL := 1) (by omega) (ub - x).toNat x ub h1 (by push_cast; omega)
    (by push_cast; omega) (by push_cast; omega)
  rw [this]
  congr 2
  push_cast
  omega

/-- The end of the indices computed by a SIMD loop. -/
def simdHi (lb trip : ℤ) (VL : ℕ) (fullySimd : Bool) : ℤ :=
  if VL > 1 ∧ fullySimd = true then lb + (trip + (VL - 1)) / VL * VL else lb + trip

theorem simdIterate_spec {ins : List SIn} {outs : List (SOut R)} {h : Heap R} {lb : ℤ} {trip : IE}
    {VL : ℕ} {fullySimd : Bool} (ht : 0 ≤ trip.val)
    (ok : SimdOk ins outs h lb (simdHi lb trip.val VL fullySimd)) :
    simdIterate ins outs lb trip VL fullySimd h =
      some (simdDone ins outs h lb (simdHi lb trip.val VL fullySimd)) := by
  have h0 : simdDone ins outs h lb lb = h := simdDone_empty _ _ _ (le_refl _)
  unfold simdIterate
  by_cases hVL : VL > 1
  · rw [if_pos hVL]
    have hv : (0 : ℤ) < VL := by omega
    cases fullySimd
    · have hhi : simdHi lb trip.val VL false = lb + trip.val := by simp [simdHi]
      rw [hhi] at ok ⊢
      simp only [Bool.false_eq_true, if_false]
      have hdm := Int.mul_ediv_add_emod trip.val VL
      have hm0 := Int.emod_nonneg trip.val (by omega : (VL : ℤ) ≠ 0)
      have hm1 := Int.emod_lt_of_pos trip.val hv
      have hq0 : 0 ≤ trip.val / VL := Int.ediv_nonneg ht (by omega)
      obtain ⟨q, hq⟩ := Int.eq_ofNat_of_zero_le hq0
      rw [hq, mul_comm] at hdm
      have := simd_loop ok (by omega : 0 < VL) q lb (lb + trip.val - (VL - 1)) (le_refl _)
        (by omega) (by omega) (by omega)
      rw [h0] at this
      rw [this, Option.bind_some]
      by_cases hl : trip.lit = true ∧ trip.val % VL = 0
      · rw [if_pos hl]
        congr 2
        omega
      · rw [if_neg hl]
        have e : lb + (trip.val - trip.val % VL) = lb + q * VL := by omega
        rw [e]
        exact simd_scalar_loop ok (by have : (0 : ℤ) ≤ q * VL := by positivity
                                      omega) (by omega) (le_refl _)
    · have hhi : simdHi lb trip.val VL true = lb + (trip.val + (VL - 1)) / VL * VL := by
        simp [simdHi, hVL]
      rw [hhi] at ok ⊢
      simp only [if_true]
      have hdm := Int.mul_ediv_add_emod (trip.val + (VL - 1)) VL
      have hm0 := Int.emod_nonneg (trip.val + (VL - 1)) (by omega : (VL : ℤ) ≠ 0)
      have hm1 := Int.emod_lt_of_pos (trip.val + (VL - 1)) hv
      have hq0 : 0 ≤ (trip.val + (VL - 1)) / VL := Int.ediv_nonneg (by omega) (by omega)
      obtain ⟨q, hq⟩ := Int.eq_ofNat_of_zero_le hq0
      rw [hq, mul_comm] at hdm
      rw [hq] at ok ⊢
      have := simd_loop ok (by omega : 0 < VL) q lb (lb + trip.val) (le_refl _)
        (le_refl _) (by omega) (by omega)
      rw [h0] at this
      rw [this, Option.bind_some]
  · rw [if_neg hVL]
    have hhi : simdHi lb trip.val VL fullySimd = lb + trip.val := by
      unfold simdHi; rw [if_neg (by tauto)]
    rw [hhi] at ok ⊢
    have := simd_scalar_loop ok (le_refl lb) (by omega : lb ≤ lb + trip.val) (le_refl _)
    rw [h0] at this
    exact this

/-! ### Vector length and padding -/

theorem simdUnroll_spec (archVL unroll0 : ℕ) (avgOk over isStatic : Bool) (staticSize : ℕ)
    (hu : 0 < unroll0) :
    0 < (simdUnroll archVL unroll0 avgOk over isStatic staticSize).1 ∧
      ((simdUnroll archVL unroll0 avgOk over isStatic staticSize).2 = true → over = false →
        (simdUnroll archVL unroll0 avgOk over isStatic staticSize).1 ∣ staticSize) := by
  unfold simdUnroll
  by_cases h1 : archVL ≤ 1
  · rw [if_pos h1]; simp
  rw [if_neg h1]
  by_cases h2 : (isStatic && decide (staticSize < archVL)) = true
  · rw [if_pos h2]; simp
  rw [if_neg h2]
  by_cases h3 : (!avgOk) = true
  · rw [if_pos h3]; simp
  rw [if_neg h3]
  simp only
  set short := isStatic && decide (staticSize < unroll0 * archVL) with hshort
  set u1 := if short = true then staticSize / archVL else unroll0 with hu1
  set u2 := if (short && over && decide (staticSize % (archVL * u1) ≠ 0) &&
      decide (archVL ≤ 16)) = true then u1 + 1 else u1 with hu2
  have p1 : 0 < u1 := by
    rw [hu1]
    split
    · rename_i hs
      rw [hshort] at hs
      simp only [Bool.and_eq_true, decide_eq_true_eq, not_and, not_lt] at hs h2
      exact Nat.div_pos (h2 hs.1) (by omega)
    · exact hu
  have p2 : 0 < u2 := by rw [hu2]; split <;> omega
  split
  · simp
  split
  · simp
  refine ⟨Nat.mul_pos (by omega) p2, ?_⟩
  intro h ho
  simp only [ho, Bool.false_or, Bool.and_eq_true, decide_eq_true_eq] at h
  exact Nat.dvd_of_mod_eq_zero h.2

/-- The allocation holds the memref extended to whole vectors. -/
theorem paddedBits_spec (staticShape : Bool) (staticSize dynSize VL bits : ℕ) (hVL : 0 < VL)
    (hs : staticShape = true → dynSize = 1) :
    (staticSize * dynSize + (VL - 1)) / VL * VL * bits ≤
      paddedBits staticShape staticSize dynSize VL bits := by
  unfold paddedBits
  by_cases h : staticSize % VL = 0
  · rw [if_pos h]
    obtain ⟨q, hq⟩ := Nat.dvd_of_mod_eq_zero h
    refine Nat.mul_le_mul_right _ ?_
    have : (staticSize * dynSize + (VL - 1)) / VL = q * dynSize := by
      rw [hq, Nat.mul_assoc, Nat.mul_add_div hVL, Nat.div_eq_of_lt (by omega), Nat.add_zero]
    rw [this, hq]
    exact le_of_eq (by ring)
  · rw [if_neg h]
    simp only
    set pad := if staticShape = true then VL - staticSize % VL else VL with hpad
    have key : (staticSize * dynSize + (VL - 1)) / VL * VL ≤ staticSize * dynSize + pad := by
      cases hst : staticShape
      · rw [hst] at hpad
        simp only [Bool.false_eq_true, if_false] at hpad
        rw [hpad]
        have := Nat.div_mul_le_self (staticSize * dynSize + (VL - 1)) VL
        omega
      · rw [hst] at hpad
        simp only [if_true] at hpad
        rw [hs hst, Nat.mul_one, hpad]
        have hm := Nat.mod_lt staticSize hVL
        have hdm := Nat.div_add_mod staticSize VL
        generalize staticSize / VL = q at *
        generalize staticSize % VL = r at *
        have e : staticSize + (VL - 1) = VL * (q + 1) + (r - 1) := by
          rw [Nat.mul_add, Nat.mul_one]; omega
        rw [e, Nat.mul_add_div hVL, Nat.div_eq_of_lt (show r - 1 < VL by omega), Nat.add_zero,
          Nat.mul_comm, Nat.mul_add, Nat.mul_one]
        omega
    by_cases hb : bits % 8 = 0
    · rw [if_pos hb]
      obtain ⟨w, rfl⟩ := Nat.dvd_of_mod_eq_zero hb
      rw [Nat.mul_div_cancel_left _ (by omega : 0 < 8)]
      calc (staticSize * dynSize + (VL - 1)) / VL * VL * (8 * w)
          ≤ (staticSize * dynSize + pad) * (8 * w) := Nat.mul_le_mul_right _ key
        _ = 8 * (staticSize * w * dynSize + pad * w) := by ring
    · rw [if_neg hb]
      have : (staticSize * dynSize + (VL - 1)) / VL * VL * bits ≤
          staticSize * bits * dynSize + pad * bits := by
        calc (staticSize * dynSize + (VL - 1)) / VL * VL * bits
            ≤ (staticSize * dynSize + pad) * bits := Nat.mul_le_mul_right _ key
          _ = staticSize * bits * dynSize + pad * bits := by ring
      omega

end Verif.Krnl
