import Verif.Einsum.Product

/-! # Sums of products -/

namespace Verif.Einsum

open Verif.Rewrite

variable {V : Type} [Inhabited V] {A : Alg V} {D : Char → ℕ}

theorem reshapeTo_spec {o : Out V} {shape : List ℕ} {subs : List Char} (hv : o.value.shape = o.shape)
    (hl : shape.length = subs.length) (hp : o.shape.prod = shape.prod) (h0 : ∀ d ∈ shape, 0 < d) :
    ∃ v, reshapeTo o shape subs = some ⟨subs, shape, v⟩ ∧ o.value.retag shape = some v := by
  unfold reshapeTo
  rw [if_neg (by rw [hl]; simp)]
  by_cases h : o.shape = shape
  · rw [if_pos h]
    refine ⟨o.value, by rw [← h], ?_⟩
    rw [← h, ← hv]
    exact retag_self _
  · rw [if_neg h, if_neg]
    · obtain ⟨y, hy⟩ := retag_ok' (x := o.value) (s := shape) (by rw [hv]; exact hp)
      refine ⟨y, ?_, hy⟩
      have : reshape o.value false (lits shape) = some y := by
        rw [← hy]
        exact ConvTranspose.reshape_lit h0
      rw [typed_some this (retag_shape hy)]
      rfl
    · rw [not_or, not_not]
      exact ⟨hp, (Nat.pos_of_ne_zero fun hz => by
        have := List.prod_eq_zero_iff.1 hz
        exact absurd (h0 0 this) (by omega)).ne'⟩

theorem rowMajor_merge {s1 s2 s3 i1 i2 i3 : List ℕ} (l1 : i1.length = s1.length) (l2 : i2.length = s2.length) :
    rowMajor (s1 ++ [s2.prod, s3.prod]) (i1 ++ [rowMajor s2 i2, rowMajor s3 i3]) =
      rowMajor (s1 ++ s2 ++ s3) (i1 ++ i2 ++ i3) := by
  rw [List.append_assoc, List.append_assoc, rowMajor_append _ _ l1, rowMajor_append _ _ l1, rowMajor_append _ _ l2]
  simp [rowMajor]

theorem matmul_stack {a b : Tensor V} {s1 s2 s : List ℕ} {p q r : ℕ} (ha : a.shape = s1 ++ [p, q])
    (hb : b.shape = s2 ++ [q, r]) (hs : bshape s1 s2 = some s) :
    Rewrite.matmul A a b = some (build (s ++ [p, r]) fun idx => sumOver A (List.range q) fun k =>
      A.bin .mul (a.get (bidx s1 (idx.take s.length) ++ (idx.drop s.length).take 1 ++ [k]))
        (b.get (bidx s2 (idx.take s.length) ++ k :: idx.drop (s.length + 1)))) := by
  have b1 : batchOf a.shape = s1 := by rw [ha]; simp [batchOf]
  have b2 : batchOf b.shape = s2 := by rw [hb]; simp [batchOf]
  have m1 : matOf a.shape = [p, q] := by rw [ha]; simp [matOf]
  have m2 : matOf b.shape = [q, r] := by rw [hb]; simp [matOf]
  rw [matmul_some]
  refine ⟨⟨by rw [ha]; simp, by rw [hb]; simp, by rw [m1, m2]; rfl⟩, s, by rw [b1, b2]; exact hs, ?_⟩
  rw [m1, m2, b1, b2]
  simp

theorem prod_pos' {l : List ℕ} (h : ∀ d ∈ l, 0 < d) : 0 < l.prod :=
  Nat.pos_of_ne_zero fun hz => absurd (h 0 (List.prod_eq_zero_iff.1 hz)) (by omega)

theorem sum_range_indices [CommRing V] (s : List ℕ) (f : ℕ → V) :
    ((List.range s.prod).map f).sum = ((allIndices s).map fun j => f (rowMajor s j)).sum := by
  rw [← map_rowMajor_allIndices, List.map_map]
  rfl

/-- The matrix product of two values whose axes have been aligned. -/
theorem matmulAligned_spec [CommRing V] (hA : RingAlg A) {e1 e2 : Char → ℕ} {o1 o2 : Out V} (h1 : WF D e1 o1)
    (h2 : WF D e2 o2) {keep un1 red un2 : List Char} (s1 : o1.subs = keep ++ un1 ++ red)
    (s2 : o2.subs = keep ++ red ++ un2) (n1 : o1.subs.Nodup) (n2 : o2.subs.Nodup) (hr : red ≠ [])
    (hD : ∀ x, 0 < D x) (r1 : ∀ x ∈ red, e1 x = D x) (r2 : ∀ x ∈ red, e2 x = D x) (u2 : ∀ x ∈ un1, e2 x = 1)
    (u1 : ∀ x ∈ un2, e1 x = 1) :
    ∃ o', matmulAligned A keep un1 red un2 o1 o2 = some o' ∧ WF D (both e1 e2) o' ∧ o'.subs = keep ++ un1 ++ un2 ∧
      ∀ σ, (∀ x, σ x < D x) → den (both e1 e2) o' σ = sumVars D red (fun τ => den e1 o1 τ * den e2 o2 τ) σ := by
  have pos1 : ∀ x ∈ o1.subs, 0 < e1 x := fun x hx => by
    rcases h1.dims x hx with h | h
    · omega
    · rw [h]; exact hD x
  have pos2 : ∀ x ∈ o2.subs, 0 < e2 x := fun x hx => by
    rcases h2.dims x hx with h | h
    · omega
    · rw [h]; exact hD x
  have k1 : ∀ x ∈ keep, x ∈ o1.subs := fun x hx => by rw [s1]; simp [hx]
  have k2 : ∀ x ∈ keep, x ∈ o2.subs := fun x hx => by rw [s2]; simp [hx]
  have hun1 : ∀ x ∈ un1, x ∈ o1.subs := fun x hx => by rw [s1]; simp [hx]
  have hun2 : ∀ x ∈ un2, x ∈ o2.subs := fun x hx => by rw [s2]; simp [hx]
  have hred1 : ∀ x ∈ red, x ∈ o1.subs := fun x hx => by rw [s1]; simp [hx]
  have hred2 : ∀ x ∈ red, x ∈ o2.subs := fun x hx => by rw [s2]; simp [hx]
  have sh1 : o1.shape = keep.map e1 ++ un1.map e1 ++ red.map e1 := by rw [h1.shape, s1]; simp
  have sh2 : o2.shape = keep.map e2 ++ red.map e2 ++ un2.map e2 := by rw [h2.shape, s2]; simp
  have red12 : red.map e2 = red.map e1 := List.map_congr_left fun x hx => by rw [r1 x hx, r2 x hx]
  have redD : red.map e1 = red.map D := List.map_congr_left fun x hx => r1 x hx
  have t1 : o1.shape.take keep.length = keep.map e1 := by
    rw [sh1, List.append_assoc]; exact List.take_left' (by simp)
  have t2 : (o1.shape.drop keep.length).take un1.length = un1.map e1 := by
    rw [sh1, List.append_assoc, List.drop_left' (by simp)]; exact List.take_left' (by simp)
  have t3 : o1.shape.drop (keep.length + un1.length) = red.map e1 := by
    rw [sh1]; exact List.drop_left' (by simp)
  have t4 : o2.shape.take keep.length = keep.map e2 := by
    rw [sh2, List.append_assoc]; exact List.take_left' (by simp)
  have t5 : (o2.shape.drop keep.length).take red.length = red.map e2 := by
    rw [sh2, List.append_assoc, List.drop_left' (by simp)]; exact List.take_left' (by simp)
  have t6 : o2.shape.drop (keep.length + red.length) = un2.map e2 := by
    rw [sh2]; exact List.drop_left' (by simp)
  have pos_map : ∀ {l : List Char} {e : Char → ℕ}, (∀ x ∈ l, 0 < e x) → ∀ d ∈ l.map e, 0 < d := by
    intro l e h d hd
    obtain ⟨x, hx, rfl⟩ := List.mem_map.1 hd
    exact h x hx
  have p1 := prod_pos' (pos_map fun x hx => pos1 x (hun1 x hx))
  have p2 := prod_pos' (pos_map fun x hx => pos1 x (hred1 x hx))
  have p3 := prod_pos' (pos_map fun x hx => pos2 x (hun2 x hx))
  have hrt : (red.take 1).length = 1 := by
    rw [List.length_take]
    have := List.length_pos_iff.2 hr
    omega
  obtain ⟨v1, a1, a2⟩ := reshapeTo_spec (o := o1) (shape := keep.map e1 ++ [(un1.map e1).prod, (red.map e1).prod])
    (subs := keep ++ '(' :: red.take 1) (by rw [h1.value, h1.shape]) (by simp only [List.length_append, List.length_cons, List.length_map, List.length_nil, hrt])
    (by rw [sh1]; simp [List.prod_append, Nat.mul_assoc]) (by
      intro d hd
      rcases List.mem_append.1 hd with hd | hd
      · exact pos_map (fun x hx => pos1 x (k1 x hx)) d hd
      · simp only [List.mem_cons, List.not_mem_nil, or_false] at hd
        rcases hd with rfl | rfl
        · exact p1
        · exact p2)
  obtain ⟨v2, b1, b2⟩ := reshapeTo_spec (o := o2) (shape := keep.map e2 ++ [(red.map e1).prod, (un2.map e2).prod])
    (subs := keep ++ red.take 1 ++ [')']) (by rw [h2.value, h2.shape]) (by simp only [List.length_append, List.length_cons, List.length_map, List.length_nil, hrt])
    (by rw [sh2, red12]; simp [List.prod_append, Nat.mul_assoc]) (by
      intro d hd
      rcases List.mem_append.1 hd with hd | hd
      · exact pos_map (fun x hx => pos2 x (k2 x hx)) d hd
      · simp only [List.mem_cons, List.not_mem_nil, or_false] at hd
        rcases hd with rfl | rfl
        · exact p2
        · exact p3)
  have hcomp : ∀ x ∈ keep, e1 x = 1 ∨ e2 x = 1 ∨ e1 x = e2 x := fun x hx =>
    dims_compat (D := D) (h1.dims x (k1 x hx)) (h2.dims x (k2 x hx))
  have hbs := bshape_map (e1 := e1) (e2 := e2) hcomp
  have hm := matmul_stack (A := A) (retag_shape a2) (retag_shape b2) hbs
  have bu1 : un1.map (both e1 e2) = un1.map e1 := List.map_congr_left fun x hx => by
    unfold both
    split
    · rename_i h; rw [u2 x hx, h]
    · rfl
  have bu2 : un2.map (both e1 e2) = un2.map e2 := List.map_congr_left fun x hx => if_pos (u1 x hx)
  have bothpos : ∀ x ∈ keep, 0 < both e1 e2 x := fun x hx => by
    unfold both
    split
    · exact pos2 x (k2 x hx)
    · exact pos1 x (k1 x hx)
  set m := build (keep.map (both e1 e2) ++ [(un1.map e1).prod, (un2.map e2).prod]) fun idx =>
    sumOver A (List.range (red.map e1).prod) fun k =>
      A.bin .mul (v1.get (bidx (keep.map e1) (idx.take (keep.map (both e1 e2)).length) ++
          (idx.drop (keep.map (both e1 e2)).length).take 1 ++ [k]))
        (v2.get (bidx (keep.map e2) (idx.take (keep.map (both e1 e2)).length) ++ k ::
          idx.drop ((keep.map (both e1 e2)).length + 1))) with hmdef
  obtain ⟨v, c1, c2⟩ := reshapeTo_spec (o := ⟨keep ++ ['(', ')'],
      keep.map (both e1 e2) ++ [(un1.map e1).prod, (un2.map e2).prod], m⟩)
    (shape := keep.map (both e1 e2) ++ un1.map e1 ++ un2.map e2) (subs := keep ++ un1 ++ un2) rfl (by simp)
    (by simp [List.prod_append, Nat.mul_assoc]) (by
      intro d hd
      rcases List.mem_append.1 hd with hd | hd
      · rcases List.mem_append.1 hd with hd | hd
        · exact pos_map bothpos d hd
        · exact pos_map (fun x hx => pos1 x (hun1 x hx)) d hd
      · exact pos_map (fun x hx => pos2 x (hun2 x hx)) d hd)
  have hall : (keep ++ un1 ++ un2).map (both e1 e2) = keep.map (both e1 e2) ++ un1.map e1 ++ un2.map e2 := by
    rw [List.map_append, List.map_append, bu1, bu2]
  refine ⟨⟨keep ++ un1 ++ un2, keep.map (both e1 e2) ++ un1.map e1 ++ un2.map e2, v⟩, ?_, ⟨hall.symm, ?_, ?_⟩, rfl, ?_⟩
  · unfold matmulAligned
    simp only
    rw [if_neg (by
      rw [sh1, sh2]
      simp only [List.length_append, List.length_map, ne_eq, not_true_eq_false, or_self, not_false_eq_true])]
    simp only [t1, t2, t3, t4, t5, t6]
    rw [if_neg (by rw [red12]; simp), a1, Option.bind_some, b1, Option.bind_some, hbs, Option.bind_some,
      typed_some (s := keep.map (both e1 e2) ++ [(un1.map e1).prod, (un2.map e2).prod]) hm rfl, Option.bind_some]
    exact c1
  · show v.shape = _
    rw [retag_shape c2, hall]
  · intro x hx
    have hx : x ∈ keep ++ un1 ++ un2 := hx
    rcases List.mem_append.1 hx with hx | hx
    · rcases List.mem_append.1 hx with hx | hx
      · exact both_dims (h1.dims x (k1 x hx)) (h2.dims x (k2 x hx))
      · exact both_dims (h1.dims x (hun1 x hx)) (.inl (u2 x hx))
    · exact both_dims (.inl (u1 x hx)) (h2.dims x (hun2 x hx))
  · intro σ hσ
    set g := pos (both e1 e2) σ with hg
    have gk : ∀ x ∈ keep, g x < both e1 e2 x := fun x hx =>
      pos_lt (D := D) (both_dims (h1.dims x (k1 x hx)) (h2.dims x (k2 x hx))) (hσ x)
    have gu1 : un1.map g = un1.map (pos e1 σ) := List.map_congr_left fun x hx => by
      rw [hg, ← pos_both_left (e1 := e1) (e2 := e2)]
      by_cases h : e1 x = 1
      · rw [if_pos h]
        unfold pos
        exact if_pos (by unfold both; rw [if_pos h, u2 x hx])
      · rw [if_neg h]
    have gu2 : un2.map g = un2.map (pos e2 σ) := List.map_congr_left fun x hx => by
      rw [hg, ← pos_both_right (e1 := e1) (e2 := e2) (.inl (u1 x hx))]
      by_cases h : e2 x = 1
      · rw [if_pos h]
        unfold pos
        exact if_pos (by unfold both; rw [if_pos (u1 x hx), h])
      · rw [if_neg h]
    have in1 : InBounds (un1.map e1) (un1.map (pos e1 σ)) :=
      map_inBounds fun x hx => pos_lt (h1.dims x (hun1 x hx)) (hσ x)
    have in2 : InBounds (un2.map e2) (un2.map (pos e2 σ)) :=
      map_inBounds fun x hx => pos_lt (h2.dims x (hun2 x hx)) (hσ x)
    unfold den
    show v.get ((keep ++ un1 ++ un2).map g) = _
    have e0 : v.get ((keep ++ un1 ++ un2).map g) = m.get (keep.map g ++
        [rowMajor (un1.map e1) (un1.map (pos e1 σ)), rowMajor (un2.map e2) (un2.map (pos e2 σ))]) := by
      refine retag_get' c2 ?_
      rw [List.map_append, List.map_append, gu1, gu2]
      exact (rowMajor_merge (by simp) (by simp)).symm
    have hinm : InBounds (keep.map (both e1 e2) ++ [(un1.map e1).prod, (un2.map e2).prod]) (keep.map g ++
        [rowMajor (un1.map e1) (un1.map (pos e1 σ)), rowMajor (un2.map e2) (un2.map (pos e2 σ))]) := by
      rw [inBounds_append (by simp)]
      exact ⟨map_inBounds gk, by simp [rowMajor_lt in1, rowMajor_lt in2]⟩
    rw [e0, hmdef, get_build _ hinm]
    have tk : ∀ l : List ℕ, (keep.map g ++ l).take (keep.map (both e1 e2)).length = keep.map g :=
      fun l => List.take_left' (by simp)
    have dk : ∀ l : List ℕ, (keep.map g ++ l).drop (keep.map (both e1 e2)).length = l :=
      fun l => List.drop_left' (by simp)
    rw [tk, ← List.drop_drop, dk]
    have kk1 : bidx (keep.map e1) (keep.map g) = keep.map (pos e1 σ) := by
      have := bidx_map e1 g [] keep
      rw [List.nil_append] at this
      rw [this]
      exact List.map_congr_left fun x _ => pos_both_left
    have kk2 : bidx (keep.map e2) (keep.map g) = keep.map (pos e2 σ) := by
      have := bidx_map e2 g [] keep
      rw [List.nil_append] at this
      rw [this]
      exact List.map_congr_left fun x hx => pos_both_right (hcomp x hx)
    rw [kk1, kk2, sumOver_eq hA, sum_range_indices, redD]
    simp only [hA.mul]
    have nred : red.Nodup := by
      rw [s1] at n1
      exact (List.nodup_append.1 n1).2.1
    rw [sum_all (D := D) (σ := σ) _ nred]
    refine sumVars_congr fun τ hτ => ?_
    have nd1 : ∀ x, x ∈ keep ∨ x ∈ un1 → τ x = σ x := fun x hx => hτ.1 x fun hr => by
      rw [s1] at n1
      have := (List.nodup_append.1 n1).2.2 x (by rcases hx with h | h <;> simp [h]) x hr
      exact this rfl
    have nd2 : ∀ x, x ∈ keep ∨ x ∈ un2 → τ x = σ x := fun x hx => hτ.1 x fun hr => by
      rw [s2, List.append_assoc] at n2
      obtain ⟨-, q1, q2⟩ := List.nodup_append.1 n2
      rcases hx with h | h
      · exact q2 x h x (by simp [hr]) rfl
      · exact (List.nodup_append.1 q1).2.2 x hr x h rfl
    have pk1 : keep.map (pos e1 σ) = keep.map (pos e1 τ) := List.map_congr_left fun x hx => by
      unfold pos; rw [nd1 x (.inl hx)]
    have pk2 : keep.map (pos e2 σ) = keep.map (pos e2 τ) := List.map_congr_left fun x hx => by
      unfold pos; rw [nd2 x (.inl hx)]
    have pu1 : un1.map (pos e1 σ) = un1.map (pos e1 τ) := List.map_congr_left fun x hx => by
      unfold pos; rw [nd1 x (.inr hx)]
    have pu2 : un2.map (pos e2 σ) = un2.map (pos e2 τ) := List.map_congr_left fun x hx => by
      unfold pos; rw [nd2 x (.inr hx)]
    have pr : ∀ e : Char → ℕ, (∀ x ∈ red, e x = D x) → red.map τ = red.map (pos e τ) := fun e he =>
      List.map_congr_left fun x hx => by
        unfold pos
        split
        · have := hτ.2 x hx
          have := he x hx
          omega
        · rfl
    have f1 : o1.subs.map (pos e1 τ) = keep.map (pos e1 τ) ++ un1.map (pos e1 τ) ++ red.map (pos e1 τ) := by
      rw [s1]; simp
    have f2 : o2.subs.map (pos e2 τ) = keep.map (pos e2 τ) ++ red.map (pos e2 τ) ++ un2.map (pos e2 τ) := by
      rw [s2]; simp
    congr 1
    · refine retag_get' a2 ?_
      rw [← redD, f1, h1.value, s1, pk1, pu1, pr e1 r1, List.map_append, List.map_append]
      rw [← rowMajor_merge (by simp) (by simp)]
      simp
    · refine retag_get' b2 ?_
      rw [f2, h2.value, s2, pk2, pu2, pr e2 r2, List.map_append, List.map_append, red12, redD]
      rw [← rowMajor_merge (by simp) (by simp)]
      simp

/-- The contraction of two values by a matrix product. -/
theorem matmul_spec [CommRing V] (hA : RingAlg A) {e1 e2 : Char → ℕ} {o1 o2 : Out V} (h1 : WF D e1 o1) (h2 : WF D e2 o2)
    (n1 : o1.subs.Nodup) (n2 : o2.subs.Nodup) (hD : ∀ x, 0 < D x) {red : List Char} (hr : red ≠ []) (nr : red.Nodup)
    (r0 : ∀ x ∈ red, x ∈ o1.subs ∧ x ∈ o2.subs ∧ e1 x = D x ∧ e2 x = D x) :
    ∃ o' e', matmul A red o1 o2 = some o' ∧ WF D e' o' ∧ o'.subs.Nodup ∧
      (∀ x, x ∈ o'.subs ↔ (x ∈ o1.subs ∨ x ∈ o2.subs) ∧ x ∉ red) ∧
      (∀ x, e' x = both (withOnes o1.subs e1) (withOnes o2.subs e2) x) ∧
      ∀ σ, (∀ x, σ x < D x) → den e' o' σ = sumVars D red (fun τ => den e1 o1 τ * den e2 o2 τ) σ := by
  unfold matmul
  simp only
  set keep := o1.subs.filter fun x => x ∈ o2.subs ∧ x ∉ red
  set red' := o1.subs.filter fun x => x ∈ o2.subs ∧ x ∈ red
  set un1 := o1.subs.filter (· ∉ o2.subs)
  set un2 := o2.subs.filter (· ∉ o1.subs)
  have nred' : red'.Nodup := n1.filter _
  have hrp : red'.Perm red := by
    refine (List.perm_ext_iff_of_nodup nred' nr).2 fun x => ?_
    simp only [red', List.mem_filter, decide_eq_true_eq]
    constructor
    · exact fun h => h.2.2
    · exact fun h => ⟨(r0 x h).1, (r0 x h).2.1, h⟩
  rw [if_neg (by rw [List.Nodup.dedup nr, hrp.length_eq]; simp)]
  have mk : ∀ x, x ∈ keep ↔ x ∈ o1.subs ∧ x ∈ o2.subs ∧ x ∉ red := fun x => by simp [keep]
  have mr : ∀ x, x ∈ red' ↔ x ∈ red := fun x => hrp.mem_iff
  have mu1 : ∀ x, x ∈ un1 ↔ x ∈ o1.subs ∧ x ∉ o2.subs := fun x => by simp [un1]
  have mu2 : ∀ x, x ∈ un2 ↔ x ∈ o2.subs ∧ x ∉ o1.subs := fun x => by simp [un2]
  have nk : keep.Nodup := n1.filter _
  have nu1 : un1.Nodup := n1.filter _
  have nu2 : un2.Nodup := n2.filter _
  have P1 : (keep ++ un1 ++ red').Perm o1.subs := by
    refine (List.perm_ext_iff_of_nodup ?_ n1).2 fun x => ?_
    · refine List.nodup_append.2 ⟨List.nodup_append.2 ⟨nk, nu1, ?_⟩, nred', ?_⟩
      · rintro x hx y hy rfl
        exact ((mu1 x).1 hy).2 ((mk x).1 hx).2.1
      · rintro x hx y hy rfl
        rcases List.mem_append.1 hx with hx | hx
        · exact ((mk x).1 hx).2.2 ((mr x).1 hy)
        · exact ((mu1 x).1 hx).2 (r0 x ((mr x).1 hy)).2.1
    · rw [List.mem_append, List.mem_append, mk, mu1, mr]
      constructor
      · rintro ((h | h) | h)
        · exact h.1
        · exact h.1
        · exact (r0 x h).1
      · intro h
        by_cases h2 : x ∈ o2.subs
        · by_cases h3 : x ∈ red
          · exact .inr h3
          · exact .inl (.inl ⟨h, h2, h3⟩)
        · exact .inl (.inr ⟨h, h2⟩)
  have P2 : (keep ++ red' ++ un2).Perm o2.subs := by
    refine (List.perm_ext_iff_of_nodup ?_ n2).2 fun x => ?_
    · refine List.nodup_append.2 ⟨List.nodup_append.2 ⟨nk, nred', ?_⟩, nu2, ?_⟩
      · rintro x hx y hy rfl
        exact ((mk x).1 hx).2.2 ((mr x).1 hy)
      · rintro x hx y hy rfl
        rcases List.mem_append.1 hx with hx | hx
        · exact ((mu2 x).1 hy).2 ((mk x).1 hx).1
        · exact ((mu2 x).1 hy).2 (r0 x ((mr x).1 hx)).1
    · rw [List.mem_append, List.mem_append, mk, mu2, mr]
      constructor
      · rintro ((h | h) | h)
        · exact h.2.1
        · exact (r0 x h).2.1
        · exact h.1
      · intro h
        by_cases h2 : x ∈ o1.subs
        · by_cases h3 : x ∈ red
          · exact .inl (.inr h3)
          · exact .inl (.inl ⟨h2, h, h3⟩)
        · exact .inr ⟨h, h2⟩
  obtain ⟨p1, a1, a2, a3, a4⟩ := transposeTo_den h1 n1 P1
  obtain ⟨p2, b1, b2, b3, b4⟩ := transposeTo_den h2 n2 P2
  rw [a1, Option.bind_some, b1, Option.bind_some]
  -- the extents only matter on the subscripts
  have W : ∀ {o p : Out V} {e : Char → ℕ}, WF D e p → (∀ x, x ∈ p.subs ↔ x ∈ o.subs) →
      WF D (withOnes o.subs e) p ∧ ∀ σ, den (withOnes o.subs e) p σ = den e p σ := by
    intro o p e h hm
    have he : ∀ x ∈ p.subs, withOnes o.subs e x = e x := fun x hx => if_pos ((hm x).1 hx)
    have hmap : p.subs.map (withOnes o.subs e) = p.subs.map e := List.map_congr_left he
    refine ⟨⟨by rw [hmap]; exact h.shape, by rw [hmap]; exact h.value, fun x hx => by rw [he x hx]; exact h.dims x hx⟩,
      fun σ => ?_⟩
    unfold den
    congr 1
    exact List.map_congr_left fun x hx => by unfold pos; rw [he x hx]
  have M1 : ∀ x, x ∈ p1.subs ↔ x ∈ o1.subs := fun x => by rw [a3]; exact P1.mem_iff
  have M2 : ∀ x, x ∈ p2.subs ↔ x ∈ o2.subs := fun x => by rw [b3]; exact P2.mem_iff
  obtain ⟨W1, D1⟩ := W a2 M1
  obtain ⟨W2, D2⟩ := W b2 M2
  obtain ⟨o', c1, c2, c3, c4⟩ := matmulAligned_spec hA W1 W2 a3 b3 (by rw [a3]; exact P1.nodup_iff.2 n1)
    (by rw [b3]; exact P2.nodup_iff.2 n2) (by
      intro h
      rw [h] at hrp
      exact hr (hrp.symm.eq_nil)) hD
    (fun x hx => by
      have := r0 x ((mr x).1 hx)
      unfold withOnes
      rw [if_pos this.1]; exact this.2.2.1)
    (fun x hx => by
      have := r0 x ((mr x).1 hx)
      unfold withOnes
      rw [if_pos this.2.1]; exact this.2.2.2)
    (fun x hx => if_neg ((mu1 x).1 hx).2) (fun x hx => if_neg ((mu2 x).1 hx).2)
  refine ⟨o', _, c1, c2, ?_, ?_, fun _ => rfl, ?_⟩
  · rw [c3]
    refine List.nodup_append.2 ⟨List.nodup_append.2 ⟨nk, nu1, ?_⟩, nu2, ?_⟩
    · rintro x hx y hy rfl
      exact ((mu1 x).1 hy).2 ((mk x).1 hx).2.1
    · rintro x hx y hy rfl
      rcases List.mem_append.1 hx with hx | hx
      · exact ((mu2 x).1 hy).2 ((mk x).1 hx).1
      · exact ((mu2 x).1 hy).2 ((mu1 x).1 hx).1
  · intro x
    rw [c3, List.mem_append, List.mem_append, mk, mu1, mu2]
    constructor
    · rintro ((h | h) | h)
      · exact ⟨.inl h.1, h.2.2⟩
      · exact ⟨.inl h.1, fun hr => h.2 (r0 x hr).2.1⟩
      · exact ⟨.inr h.1, fun hr => h.2 (r0 x hr).1⟩
    · rintro ⟨h | h, hx⟩
      · by_cases h2 : x ∈ o2.subs
        · exact .inl (.inl ⟨h, h2, hx⟩)
        · exact .inl (.inr ⟨h, h2⟩)
      · by_cases h2 : x ∈ o1.subs
        · exact .inl (.inl ⟨h2, h, hx⟩)
        · exact .inr ⟨h, h2⟩
  · intro σ hσ
    rw [c4 σ hσ, sumVars_perm hrp]
    refine sumVars_congr fun τ hτ => ?_
    have hτ' : ∀ x, τ x < D x := fun x => by
      by_cases h : x ∈ red
      · exact hτ.2 x h
      · rw [hτ.1 x h]; exact hσ x
    rw [D1, D2, a4 τ hτ', b4 τ hτ']

end Verif.Einsum
