import Verif.Lower.ReduceSimd

namespace Verif.Lower

open Verif.Krnl (Buf IE forLoop starts isTileFull multiReduction simdHi mem_starts)

theorem mem_starts_dvd {lo hi : ℤ} {s : ℕ} (hs : 0 < s) {x : ℤ} :
    x ∈ starts lo hi s ↔ lo ≤ x ∧ x < hi ∧ (s : ℤ) ∣ x - lo := by
  rw [mem_starts hs]
  constructor
  · rintro ⟨k, rfl, h⟩
    refine ⟨?_, h, ⟨k, by ring⟩⟩
    have : (0 : ℤ) ≤ (k : ℤ) * s := by positivity
    omega
  · rintro ⟨h1, h2, ⟨k, hk⟩⟩
    have hs' : (0 : ℤ) < s := by omega
    have hk0 : 0 ≤ k := by
      by_contra hc
      have : (s : ℤ) * k < 0 := mul_neg_of_pos_of_neg hs' (by omega)
      omega
    obtain ⟨n, rfl⟩ := Int.eq_ofNat_of_zero_le hk0
    exact ⟨n, by linarith, h2⟩

section
variable {R : Type*}

/-- The positions `S` were overwritten with `val`, all others are unchanged. -/
def Wrote (val : ℤ → R) (S : ℤ → Prop) (o o' : Buf R) : Prop :=
  o'.size = o.size ∧ (∀ y, S y → o'.data y = val y) ∧ ∀ y, ¬ S y → o'.data y = o.data y

theorem Wrote.list {α : Type*} {val : ℤ → R} {sz : ℤ} {S : α → ℤ → Prop} {f : Buf R → α → Option (Buf R)} :
    ∀ (L : List α) (o : Buf R), o.size = sz →
      (∀ a ∈ L, ∀ o : Buf R, o.size = sz → ∃ o', f o a = some o' ∧ Wrote val (S a) o o') →
      ∃ o', L.foldlM f o = some o' ∧ Wrote val (fun y => ∃ a ∈ L, S a y) o o'
  | [], o, _, _ => ⟨o, rfl, rfl, fun y h => by obtain ⟨_, h, _⟩ := h; simp at h, fun _ _ => rfl⟩
  | a :: L, o, hs, h => by
    obtain ⟨o1, e1, w1⟩ := h a (by simp) o hs
    obtain ⟨o2, e2, w2⟩ := Wrote.list L o1 (by rw [w1.1, hs]) fun b hb => h b (by simp [hb])
    refine ⟨o2, by rw [List.foldlM_cons, e1]; exact e2, by rw [w2.1, w1.1], ?_, ?_⟩
    · rintro y ⟨b, hb, hy⟩
      by_cases hL : ∃ a ∈ L, S a y
      · exact w2.2.1 y hL
      · rw [w2.2.2 y hL]
        rcases List.mem_cons.1 hb with rfl | hb
        · exact w1.2.1 y hy
        · exact absurd ⟨b, hb, hy⟩ hL
    · intro y hy
      rw [w2.2.2 y (fun ⟨b, hb, h⟩ => hy ⟨b, by simp [hb], h⟩),
        w1.2.2 y (fun h => hy ⟨a, by simp, h⟩)]

theorem vstore_wrote {val : ℤ → R} {o : Buf R} {p : ℤ} {VL : ℕ} {v : ℕ → R} (h0 : 0 ≤ p)
    (h1 : p + VL ≤ o.size) (hv : ∀ l < VL, v l = val (p + l)) :
    ∃ o', Buf.vstore o p VL v = some o' ∧ Wrote val (fun y => p ≤ y ∧ y < p + VL) o o' := by
  unfold Buf.vstore
  rw [if_pos ⟨h0, h1⟩]
  refine ⟨_, rfl, rfl, ?_, ?_⟩
  · intro y hy
    simp only
    rw [if_pos hy, hv _ (by omega)]
    congr 1; omega
  · intro y hy
    simp only
    rw [if_neg hy]

/-- The reduction of row `y` of a matrix with rows of `K` elements. -/
def rowVal (N : NumOps R) (k : RKind) (X : Buf R) (K : ℤ) (d : R) (y : ℤ) : R :=
  post N k d (((List.range K.toNat).map fun (j : ℕ) => X.data (y * K + j)).foldl (k.op N) (k.ident N))

/-- The laws of the arithmetic used by a reduction. -/
def RKind.Lawful (N : NumOps R) (k : RKind) : Prop := IsCommMon (k.op N) (k.ident N)

theorem combine_eq (N : NumOps R) (k : RKind) : k.combine N = k.op N := by cases k <;> rfl

/-- A loop without remainder runs over whole vectors. -/
theorem simdHi_eq {K : ℤ} {VL : ℕ} {simdOnly : Bool} (hVL : 0 < VL)
    (hd : simdOnly = true → (VL : ℤ) ∣ K) : simdHi 0 K VL simdOnly = K := by
  unfold simdHi
  split
  · rename_i h
    obtain ⟨q, rfl⟩ := hd h.2
    have : ((VL : ℤ) * q + ((VL : ℤ) - 1)) / VL = q := by
      rw [Int.add_comm, Int.add_mul_ediv_left _ _ (by omega),
        Int.ediv_eq_zero_of_lt (by omega) (by omega)]
      simp
    rw [this]; ring
  · ring

theorem lin_row {outer : List ℤ} {oi : Idx} (K : ℤ) (h : InShape oi outer) :
    lin (outer ++ [K]) (oi ++ [0]) = lin outer oi * K := by
  rw [lin_append _ _ _ _ h.length]
  simp [lin, numel]

theorem row_fits {y n K : ℤ} (h0 : 0 ≤ y) (h1 : y < n) (hK : 0 ≤ K) :
    0 ≤ y * K ∧ y * K + K ≤ n * K := by
  refine ⟨mul_nonneg h0 hK, ?_⟩
  have := mul_le_mul_of_nonneg_right (show y + 1 ≤ n by omega) hK
  rw [add_mul, one_mul] at this
  exact this

theorem oneHorizontal_spec (N : NumOps R) (k : RKind) (hk : k.Lawful N) (X : Buf R) (outer : List ℤ)
    (K : IE) (VL : ℕ) (simdOnly : Bool) (d : R) (oi : Idx) (out : Buf R) (hVL : 0 < VL)
    (hK : 0 ≤ K.val) (hd : simdOnly = true → (VL : ℤ) ∣ K.val)
    (hX : X.size = numel outer * K.val) (ho : out.size = numel outer) (hi : InShape oi outer) :
    ∃ o', oneHorizontal N k X outer K VL simdOnly d oi out = some o' ∧
      Wrote (rowVal N k X K.val d) (fun y => y = lin outer oi) out o' := by
  have hb := lin_bounds hi
  have hf := row_fits hb.1 hb.2 hK
  unfold oneHorizontal
  rw [lin_row K.val hi]
  obtain ⟨tmp, e, ht⟩ := simdReduce_spec ⟨1, fun _ => X, fun _ => lin outer oi * K.val,
    fun _ => k.op N, fun _ => k.ident N⟩ 0 K VL simdOnly hVL hK
    (fun v _ => by simp only [simdHi_eq hVL hd]; omega) K.val.toNat
    (by rw [simdHi_eq hVL hd]; omega)
  rw [e, Option.bind_some]
  have hv := ht 0 (by simp) (k.op N) (k.ident N) id hk (fun _ _ => rfl) rfl
  simp only [id, add_zero] at hv
  obtain ⟨o', e', w⟩ := vstore_wrote (val := rowVal N k X K.val d) (o := out) (p := lin outer oi)
    (VL := 1) (v := fun _ => post N k d (vecReduction (k.combine N) VL (tmp 0))) hb.1
    (by push_cast; omega) (fun l hl => by
      rw [combine_eq, hv, rowVal]
      congr 1
      have : l = 0 := by omega
      subst this
      simp)
  refine ⟨o', e', w.1, fun y hy => w.2.1 y (by push_cast; omega), fun y hy => w.2.2 y (by push_cast; omega)⟩

theorem horizontal_spec (N : NumOps R) (k : RKind) (hk : k.Lawful N) (X : Buf R) (outer : List ℤ)
    (K : IE) (VL : ℕ) (simdOnly : Bool) (d : R) (out : Buf R) (hVL : 0 < VL)
    (hK : 0 ≤ K.val) (hd : simdOnly = true → (VL : ℤ) ∣ K.val)
    (hX : X.size = numel outer * K.val) (ho : out.size = numel outer) :
    ∃ o', horizontal N k X outer K VL simdOnly d out = some o' ∧ o'.size = out.size ∧
      ∀ oi, InShape oi outer → o'.data (lin outer oi) = rowVal N k X K.val d (lin outer oi) := by
  obtain ⟨o', e, w⟩ := Wrote.list (val := rowVal N k X K.val d) (sz := numel outer)
    (S := fun (oi : Idx) (y : ℤ) => y = lin outer oi)
    (f := fun o oi => oneHorizontal N k X outer K VL simdOnly d oi o) (idxs outer) out ho
    (fun oi hoi o hs => oneHorizontal_spec N k hk X outer K VL simdOnly d oi o hVL hK hd hX hs
      (mem_idxs.1 hoi))
  exact ⟨o', e, w.1, fun oi hoi => w.2.1 _ ⟨oi, mem_idxs.2 hoi, rfl⟩⟩

theorem vlHorizontal_spec (N : NumOps R) (k : RKind) (hk : k.Lawful N) (X : Buf R) (outer : List ℤ)
    (M : ℤ) (K : IE) (e : ℕ) (simdOnly : Bool) (d : R) (oi : Idx) (m : ℤ) (out : Buf R)
    (hK : 0 ≤ K.val) (hd : simdOnly = true → ((2 ^ e : ℕ) : ℤ) ∣ K.val)
    (hX : X.size = numel (outer ++ [M]) * K.val) (ho : out.size = numel (outer ++ [M]))
    (hi : InShape oi outer) (h0 : 0 ≤ m) (h1 : m + (2 ^ e : ℕ) ≤ M) :
    ∃ o', vlHorizontal N k X (outer ++ [M]) K (2 ^ e) simdOnly d oi m out = some o' ∧
      Wrote (rowVal N k X K.val d) (fun y => lin (outer ++ [M]) (oi ++ [m]) ≤ y ∧
        y < lin (outer ++ [M]) (oi ++ [m]) + (2 ^ e : ℕ)) out o' := by
  have hVL : 0 < 2 ^ e := by positivity
  have hin : ∀ v : ℕ, v < 2 ^ e → InShape (oi ++ [m + v]) (outer ++ [M]) := by
    intro v hv
    rw [inShape_append hi.length]
    refine ⟨hi, inShape_cons.2 ⟨by omega, inShape_nil⟩⟩
  have hlin : ∀ v : ℕ, lin (outer ++ [M]) (oi ++ [m + v]) = lin (outer ++ [M]) (oi ++ [m]) + v := by
    intro v
    rw [lin_append _ _ _ _ hi.length, lin_append _ _ _ _ hi.length]
    simp only [lin, numel, List.foldr_nil]
    ring
  have hoff : ∀ v : ℕ, v < 2 ^ e → lin (outer ++ [M] ++ [K.val]) (oi ++ [m + v, 0]) =
      (lin (outer ++ [M]) (oi ++ [m]) + v) * K.val := by
    intro v hv
    rw [← hlin, ← lin_row K.val (hin v hv)]
    simp
  unfold vlHorizontal
  obtain ⟨tmp, et, ht⟩ := simdReduce_spec ⟨2 ^ e, fun _ => X,
    fun v => lin (outer ++ [M] ++ [K.val]) (oi ++ [m + v, 0]),
    fun _ => k.op N, fun _ => k.ident N⟩ 0 K (2 ^ e) simdOnly hVL hK
    (fun v hv => by
      have hb := lin_bounds (hin v hv)
      have hf := row_fits hb.1 hb.2 hK
      rw [hlin] at hf
      simp only [simdHi_eq hVL hd, hoff v hv]
      omega) K.val.toNat
    (by rw [simdHi_eq hVL hd]; omega)
  rw [et, Option.bind_some]
  obtain ⟨w, ew, hw⟩ := multiReduction_vec hk e tmp
  rw [ew]
  simp only
  have hb0 := lin_bounds (hin 0 hVL)
  have hbl := lin_bounds (hin (2 ^ e - 1) (by omega))
  rw [hlin] at hb0 hbl
  refine vstore_wrote (by omega) (by omega) fun l hl => ?_
  rw [hw l hl, ht l hl (k.op N) (k.ident N) id hk (fun _ _ => rfl) rfl, rowVal]
  simp only [id, hoff l hl, add_zero]

theorem shuffleHorizontal_spec (N : NumOps R) (k : RKind) (hk : k.Lawful N) (X : Buf R)
    (outer : List ℤ) (M K : IE) (e : ℕ) (simdOnly : Bool) (d : R) (out : Buf R)
    (hK : 0 ≤ K.val) (hd : simdOnly = true → ((2 ^ e : ℕ) : ℤ) ∣ K.val)
    (hX : X.size = numel (outer ++ [M.val]) * K.val) (ho : out.size = numel (outer ++ [M.val])) :
    ∃ o', shuffleHorizontal N k X outer M K (2 ^ e) simdOnly d out = some o' ∧ o'.size = out.size ∧
      ∀ oi, InShape oi (outer ++ [M.val]) → o'.data (lin (outer ++ [M.val]) oi) =
        rowVal N k X K.val d (lin (outer ++ [M.val]) oi) := by
  have hVL : 0 < 2 ^ e := by positivity
  obtain ⟨o', eo, w⟩ := Wrote.list (val := rowVal N k X K.val d) (sz := numel (outer ++ [M.val]))
    (S := fun (oi : Idx) (y : ℤ) => ∃ m ∈ starts 0 M.val (2 ^ e),
      ∃ j : ℤ, m ≤ j ∧ j < m + (2 ^ e : ℕ) ∧ j < M.val ∧ y = lin (outer ++ [M.val]) (oi ++ [j]))
    (f := fun o oi => forLoop 0 M.val (2 ^ e) (fun m o =>
    if isTileFull m (2 ^ e : ℕ) M < 0 then
      forLoop m M.val 1 (fun j o =>
        oneHorizontal N k X (outer ++ [M.val]) K (2 ^ e) simdOnly d (oi ++ [j]) o) o
    else vlHorizontal N k X (outer ++ [M.val]) K (2 ^ e) simdOnly d oi m o) o) (idxs outer) out ho
    (fun oi hoi o hs => by
      have hoi' := mem_idxs.1 hoi
      unfold forLoop
      refine Wrote.list (S := fun (m y : ℤ) => ∃ j : ℤ, m ≤ j ∧ j < m + (2 ^ e : ℕ) ∧ j < M.val ∧
        y = lin (outer ++ [M.val]) (oi ++ [j])) _ o hs fun m hm o hs => ?_
      obtain ⟨hm0, hm1, hdiv⟩ := (mem_starts_dvd hVL).1 hm
      have hlin : ∀ j : ℤ, lin (outer ++ [M.val]) (oi ++ [j]) =
          lin (outer ++ [M.val]) (oi ++ [m]) + (j - m) := by
        intro j
        rw [lin_append _ _ _ _ hoi'.length, lin_append _ _ _ _ hoi'.length]
        simp only [lin, numel, List.foldr_nil]
        ring
      by_cases hfull : isTileFull m (2 ^ e : ℕ) M < 0
      · -- partial tile
        have hpart : M.val < m + (2 ^ e : ℕ) := by
          unfold isTileFull at hfull
          split at hfull
          · omega
          · omega
        simp only [hfull, if_true]
        obtain ⟨o', e', w⟩ := Wrote.list (val := rowVal N k X K.val d)
          (S := fun (j y : ℤ) => y = lin (outer ++ [M.val]) (oi ++ [j]))
          (f := fun o (j : ℤ) => oneHorizontal N k X (outer ++ [M.val]) K (2 ^ e) simdOnly d (oi ++ [j]) o)
          (starts m M.val 1) o hs (fun j hj o hs => by
            obtain ⟨hj0, hj1, _⟩ := (mem_starts_dvd (by omega)).1 hj
            refine oneHorizontal_spec N k hk X _ K (2 ^ e) simdOnly d _ o hVL hK hd hX hs ?_
            rw [inShape_append hoi'.length]
            exact ⟨hoi', inShape_cons.2 ⟨by omega, inShape_nil⟩⟩)
        refine ⟨o', e', w.1, ?_, ?_⟩
        · rintro y ⟨j, h1, h2, h3, rfl⟩
          exact w.2.1 _ ⟨j, (mem_starts_dvd (by omega)).2 ⟨h1, h3, by simp⟩, rfl⟩
        · intro y hy
          refine w.2.2 y ?_
          rintro ⟨j, hj, rfl⟩
          obtain ⟨hj0, hj1, _⟩ := (mem_starts_dvd (by omega)).1 hj
          exact hy ⟨j, hj0, by omega, hj1, rfl⟩
      · -- full tile
        have hle : m + (2 ^ e : ℕ) ≤ M.val := by
          unfold isTileFull at hfull
          split at hfull
          · rename_i hl
            obtain ⟨a, ha⟩ := Int.dvd_of_emod_eq_zero hl.2
            obtain ⟨b, hb⟩ := hdiv
            have hb' : m = ((2 ^ e : ℕ) : ℤ) * b := by linarith
            have hab : b < a := by
              by_contra hc
              have : ((2 ^ e : ℕ) : ℤ) * a ≤ ((2 ^ e : ℕ) : ℤ) * b :=
                mul_le_mul_of_nonneg_left (by omega) (by omega)
              omega
            have : ((2 ^ e : ℕ) : ℤ) * (b + 1) ≤ ((2 ^ e : ℕ) : ℤ) * a :=
              mul_le_mul_of_nonneg_left (by omega) (by omega)
            rw [mul_add, mul_one] at this
            omega
          · omega
        simp only [hfull, if_false]
        obtain ⟨o', e', w⟩ := vlHorizontal_spec N k hk X outer M.val K e simdOnly d oi m o hK hd hX hs
          hoi' hm0 hle
        refine ⟨o', e', w.1, ?_, ?_⟩
        · rintro y ⟨j, h1, h2, h3, rfl⟩
          exact w.2.1 _ (by rw [hlin j]; omega)
        · intro y hy
          refine w.2.2 y ?_
          rintro ⟨h1, h2⟩
          refine hy ⟨m + (y - lin (outer ++ [M.val]) (oi ++ [m])), by omega, by omega, by omega, ?_⟩
          rw [hlin]; omega)
  refine ⟨o', eo, w.1, ?_⟩
  intro oi hoi
  -- split the index
  have hlen := hoi.length
  obtain ⟨pre, j, rfl⟩ : ∃ pre j, oi = pre ++ [j] := by
    rcases List.eq_nil_or_concat oi with h | ⟨pre, j, h⟩
    · subst h; simp at hlen
    · exact ⟨pre, j, by simpa using h⟩
  have hlen' : pre.length = outer.length := by simpa using hlen
  obtain ⟨hp, hj⟩ := (inShape_append hlen').1 hoi
  have hj' := (inShape_cons.1 hj).1
  refine w.2.1 _ ⟨pre, mem_idxs.2 hp, ?_⟩
  have hdm := Int.mul_ediv_add_emod j ((2 ^ e : ℕ) : ℤ)
  have hv : (0 : ℤ) < ((2 ^ e : ℕ) : ℤ) := by omega
  have hm0 := Int.emod_nonneg j (by omega : ((2 ^ e : ℕ) : ℤ) ≠ 0)
  have hm1 := Int.emod_lt_of_pos j hv
  have hq0 : 0 ≤ j / ((2 ^ e : ℕ) : ℤ) := Int.ediv_nonneg hj'.1 (by omega)
  have hp0 := mul_nonneg (show (0 : ℤ) ≤ ((2 ^ e : ℕ) : ℤ) by omega) hq0
  exact ⟨((2 ^ e : ℕ) : ℤ) * (j / ((2 ^ e : ℕ) : ℤ)), (mem_starts_dvd hVL).2
    ⟨by omega, by omega, by simp⟩, j, by omega, by omega, hj'.2, rfl⟩

end

end Verif.Lower
