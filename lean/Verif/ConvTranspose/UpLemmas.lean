import Verif.ConvTranspose.Model
import Verif.Rewrite.ArithSem

/-! # UpsampleAndPad -/

namespace Verif.ConvTranspose

open Verif.Rewrite

variable {V : Type} [Inhabited V] {A : Alg V}

/-- An index with coordinates in bounds. -/
abbrev InZ (s : List ℕ) (idx : List ℤ) : Prop := List.Forall₂ (fun (i : ℤ) (d : ℕ) => 0 ≤ i ∧ i < d) idx s

theorem inZ_cast {s : List ℕ} {q : List ℕ} : InZ s (q.map fun (i : ℕ) => (i : ℤ)) ↔ InBounds s q := by
  induction s generalizing q with
  | nil => cases q <;> simp [InZ]
  | cons d s ih =>
    cases q with
    | nil => simp [InZ]
    | cons a q =>
      have := ih (q := q)
      simp only [InZ] at this
      simp [InZ, this]

theorem inZ_toNat {s : List ℕ} {z : List ℤ} (h : InZ s z) :
    InBounds s (z.map Int.toNat) ∧ (z.map Int.toNat).map (fun (i : ℕ) => (i : ℤ)) = z := by
  induction h with
  | nil => exact ⟨inBounds_nil, rfl⟩
  | cons h _ ih =>
    refine ⟨?_, ?_⟩
    · rw [List.map_cons, inBounds_cons]
      exact ⟨by omega, ih.1⟩
    · rw [List.map_cons, List.map_cons, ih.2]
      congr 1
      omega

theorem cast_toNat (q : List ℕ) : (q.map fun (i : ℕ) => (i : ℤ)).map Int.toNat = q := by
  rw [List.map_map]
  conv_rhs => rw [← List.map_id q]
  exact List.map_congr_left fun i _ => by simp

theorem cast_inj {p q : List ℕ} (h : (p.map fun (i : ℕ) => (i : ℤ)) = q.map fun (i : ℕ) => (i : ℤ)) : p = q := by
  rw [← cast_toNat p, h, cast_toNat]

/-- The loops store every element of the input and leave the rest of the buffer as it was. -/
theorem upLoop_spec {s : List ℕ} {u : List UAxis} {x : Tensor V} : ∀ {l : List (List ℕ)} {data : List V},
    data.length = s.prod → (∀ i ∈ l, InZ s (upTarget u i)) → l.Pairwise (fun i j => upTarget u i ≠ upTarget u j) →
    ∃ data', upLoop s u x l data = some data' ∧ ∀ q, InBounds s q →
      (∀ i ∈ l, upTarget u i = q.map (fun (j : ℕ) => (j : ℤ)) → data'.getD (rowMajor s q) default = x.get i) ∧
      ((∀ i ∈ l, upTarget u i ≠ q.map (fun (j : ℕ) => (j : ℤ))) →
        data'.getD (rowMajor s q) default = data.getD (rowMajor s q) default)
  | [], data, _, _, _ => ⟨data, rfl, fun q _ => ⟨by simp, fun _ => rfl⟩⟩
  | i :: l, data, hd, hb, hp => by
    obtain ⟨hp1, hp2⟩ := List.pairwise_cons.1 hp
    have hi := hb i (by simp)
    obtain ⟨hi1, hi2⟩ := inZ_toNat hi
    have hlt := rowMajor_lt hi1
    obtain ⟨data', h1, h2⟩ := upLoop_spec (s := s) (u := u) (x := x) (l := l)
      (data := data.set (rowMajor s ((upTarget u i).map Int.toNat)) (x.get i)) (by simpa using hd)
      (fun j hj => hb j (by simp [hj])) hp2
    refine ⟨data', ?_, fun q hq => ⟨?_, ?_⟩⟩
    · unfold upLoop storeAt
      rw [if_pos hi]
      exact h1
    · intro j hj hjq
      rcases List.mem_cons.1 hj with rfl | hj
      · rw [(h2 q hq).2 fun k hk => hjq ▸ (hp1 k hk).symm]
        rw [hjq, cast_toNat, List.getD_eq_getElem _ _ (by rw [List.length_set, hd]; exact rowMajor_lt hq)]
        simp
      · exact (h2 q hq).1 j hj hjq
    · intro hno
      rw [(h2 q hq).2 fun k hk => hno k (by simp [hk])]
      have hne : rowMajor s ((upTarget u i).map Int.toNat) ≠ rowMajor s q := by
        intro e
        have := rowMajor_inj hi1 hq e
        exact hno i (by simp) (by rw [← hi2, this])
      rw [List.getD_eq_getElem?_getD, List.getD_eq_getElem?_getD, List.getElem?_set_ne hne]

/-- A store outside of the buffer stops the loops. -/
theorem upLoop_none {s : List ℕ} {u : List UAxis} {x : Tensor V} : ∀ {l : List (List ℕ)} {data : List V} {i : List ℕ},
    i ∈ l → ¬ InZ s (upTarget u i) → upLoop s u x l data = none
  | j :: l, data, i, hi, hn => by
    unfold upLoop storeAt
    by_cases hj : InZ s (upTarget u j)
    · rw [if_pos hj]
      rcases List.mem_cons.1 hi with rfl | hi
      · exact absurd hj hn
      · exact upLoop_none hi hn
    · rw [if_neg hj]
      rfl

/-! ### The last axes -/

/-- Targets along the last axes. -/
def tgt (u : List UAxis) (i : List ℕ) : List ℤ := List.zipWith (fun (i : ℕ) (a : UAxis) => (i : ℤ) * a.s + a.pb) i u

/-- Extents along the last axes. -/
def ext (u : List UAxis) (xs : List ℕ) : List ℤ :=
  List.zipWith (fun (d : ℕ) (a : UAxis) => ((d : ℤ) - 1) * a.s + 1 + (a.pb + a.pe)) xs u

theorem upTarget_cons2 {u : List UAxis} {n c : ℕ} {i : List ℕ} (h : i.length = u.length) :
    upTarget u (n :: c :: i) = (n : ℤ) :: (c : ℤ) :: tgt u i := by
  unfold upTarget tgt
  have : (n :: c :: i).length - u.length = 2 := by simp; omega
  rw [this]
  rfl

theorem upDims_cons2 {u : List UAxis} {n c : ℕ} {xs : List ℕ} (h : xs.length = u.length) :
    upDims (n :: c :: xs) u = (n : ℤ) :: (c : ℤ) :: ext u xs := by
  unfold upDims ext
  have : (n :: c :: xs).length - u.length = 2 := by simp; omega
  rw [this]
  rfl

theorem tgt_inj : ∀ {u : List UAxis} {i j : List ℕ}, (∀ a ∈ u, 0 < a.s) → i.length = u.length → j.length = u.length →
    tgt u i = tgt u j → i = j
  | [], [], [], _, _, _, _ => rfl
  | a :: u, x :: i, y :: j, hs, hi, hj, h => by
    unfold tgt at h
    rw [List.zipWith_cons_cons, List.zipWith_cons_cons, List.cons.injEq] at h
    have := tgt_inj (fun b hb => hs b (by simp [hb])) (by simpa using hi) (by simpa using hj) h.2
    have hpos := hs a (by simp)
    have h1 : (x : ℤ) * a.s = y * a.s := by omega
    have h2 : (x : ℤ) = y := mul_right_cancel₀ (by omega) h1
    rw [this, show x = y by omega]
  | [], _ :: _, _, _, hi, _, _ => by simp at hi
  | [], [], _ :: _, _, _, hj, _ => by simp at hj
  | _ :: _, [], _, _, hi, _, _ => by simp at hi
  | _ :: _, _ :: _, [], _, _, hj, _ => by simp at hj

/-- UpsampleAndPad along the axes after the first two: the element at `i` is found where its index is mapped to, and
every other element is 0. -/
theorem upsample_spec {x : Tensor V} {u : List UAxis} {n c : ℕ} {xs U : List ℕ} (hx : x.shape = n :: c :: xs)
    (hl : xs.length = u.length) (hs : ∀ a ∈ u, 0 < a.s) (hU : ext u xs = U.map fun (d : ℕ) => (d : ℤ))
    (hin : ∀ i, InBounds xs i → InZ U (tgt u i)) :
    ∃ y, upsampleAndPad A x u = some y ∧ y.shape = n :: c :: U ∧ ∀ n' c' q, n' < n → c' < c → InBounds U q →
      (∀ i, InBounds xs i → tgt u i = q.map (fun (j : ℕ) => (j : ℤ)) → y.get (n' :: c' :: q) = x.get (n' :: c' :: i)) ∧
      ((∀ i, InBounds xs i → tgt u i ≠ q.map (fun (j : ℕ) => (j : ℤ))) → y.get (n' :: c' :: q) = A.ofInt 0) := by
  have hdims : upDims x.shape u = (n :: c :: U).map fun (d : ℕ) => (d : ℤ) := by
    rw [hx, upDims_cons2 hl, hU]; rfl
  have hmem : ∀ i, i ∈ allIndices x.shape → ∃ n' c' i', i = n' :: c' :: i' ∧ n' < n ∧ c' < c ∧ InBounds xs i' := by
    intro i hi
    rw [mem_allIndices, hx] at hi
    match i, hi with
    | n' :: c' :: i', hi =>
      rw [inBounds_cons, inBounds_cons] at hi
      exact ⟨n', c', i', rfl, hi.1, hi.2.1, hi.2.2⟩
    | [], hi => simp at hi
    | [_], hi => simp at hi
  have htgt : ∀ {n' c' i'}, InBounds xs i' → upTarget u (n' :: c' :: i') = (n' : ℤ) :: (c' : ℤ) :: tgt u i' :=
    fun h => upTarget_cons2 (by rw [h.length, hl])
  obtain ⟨data', h1, h2⟩ := upLoop_spec (s := n :: c :: U) (u := u) (x := x) (l := allIndices x.shape)
    (data := List.replicate (n :: c :: U).prod (A.ofInt 0)) (by simp)
    (by
      intro i hi
      obtain ⟨n', c', i', rfl, hn, hc, hi'⟩ := hmem i hi
      rw [htgt hi']
      exact .cons (by omega) (.cons (by omega) (hin i' hi')))
    (by
      refine (nodup_allIndices x.shape).imp_of_mem ?_
      intro i j hi hj hne
      obtain ⟨n', c', i', rfl, hn, hc, hi'⟩ := hmem i hi
      obtain ⟨n2, c2, j', rfl, hn2, hc2, hj'⟩ := hmem j hj
      rw [htgt hi', htgt hj']
      intro e
      simp only [List.cons.injEq, Nat.cast_inj] at e
      have := tgt_inj hs (by rw [hi'.length, hl]) (by rw [hj'.length, hl]) e.2.2
      exact hne (by rw [e.1, e.2.1, this]))
  refine ⟨build (n :: c :: U) fun q => data'.getD (rowMajor (n :: c :: U) q) default, ?_, rfl, ?_⟩
  · have hc : u.length ≤ x.shape.length ∧ ∀ d ∈ upDims x.shape u, 0 ≤ d := by
      refine ⟨by rw [hx]; simp; omega, ?_⟩
      rw [hdims]
      intro d hd
      obtain ⟨e, _, rfl⟩ := List.mem_map.1 hd
      omega
    unfold upsampleAndPad
    rw [if_pos hc, hdims]
    simp only [cast_toNat]
    rw [h1]
    rfl
  · intro n' c' q hn hc hq
    have hq' : InBounds (n :: c :: U) (n' :: c' :: q) := by
      rw [inBounds_cons, inBounds_cons]
      exact ⟨hn, hc, hq⟩
    rw [get_build _ hq']
    obtain ⟨g1, g2⟩ := h2 _ hq'
    constructor
    · intro i hi hiq
      refine g1 (n' :: c' :: i) ?_ ?_
      · rw [mem_allIndices, hx, inBounds_cons, inBounds_cons]
        exact ⟨hn, hc, hi⟩
      · rw [htgt hi, hiq]; rfl
    · intro hno
      rw [g2]
      · rw [List.getD_eq_getElem _ _ (by rw [List.length_replicate]; exact rowMajor_lt hq')]
        simp
      · intro i hi e
        obtain ⟨n2, c2, i', rfl, _, _, hi'⟩ := hmem i hi
        rw [htgt hi'] at e
        simp only [List.map_cons, List.cons.injEq] at e
        exact hno i' hi' e.2.2

/-- An element whose target is outside of the buffer. -/
theorem upsample_none {x : Tensor V} {u : List UAxis} {n c : ℕ} {xs : List ℕ} (hx : x.shape = n :: c :: xs)
    (hl : xs.length = u.length) {n' c' : ℕ} {i : List ℕ} (hn : n' < n) (hc : c' < c) (hi : InBounds xs i)
    (hbad : ¬ InZ ((ext u xs).map Int.toNat) (tgt u i)) : upsampleAndPad A x u = none := by
  unfold upsampleAndPad
  split
  · rw [hx, upDims_cons2 hl]
    simp only [List.map_cons, Int.toNat_natCast]
    rw [upLoop_none (i := n' :: c' :: i)]
    · rfl
    · rw [mem_allIndices, inBounds_cons, inBounds_cons]
      exact ⟨hn, hc, hi⟩
    · rw [upTarget_cons2 (by rw [hi.length, hl])]
      intro h
      cases h with
      | cons _ h => cases h with
        | cons _ h => exact hbad h
  · rfl

theorem tgt_nat : ∀ {u : List UAxis} {i : List ℕ}, (∀ a ∈ u, 0 < a.s ∧ 0 ≤ a.pb ∧ 0 ≤ a.pe) →
    tgt u i = (List.zipWith (fun i (a : UAxis) => i * a.s + a.pb.toNat) i u).map fun (j : ℕ) => (j : ℤ)
  | [], i, _ => by cases i <;> rfl
  | _ :: _, [], _ => rfl
  | a :: u, i :: is, h => by
    have := tgt_nat (u := u) (i := is) fun b hb => h b (by simp [hb])
    unfold tgt at this ⊢
    rw [List.zipWith_cons_cons, List.zipWith_cons_cons, this, List.map_cons]
    congr 1
    push_cast
    rw [Int.toNat_of_nonneg (h a (by simp)).2.1]

theorem ext_nat : ∀ {u : List UAxis} {xs : List ℕ}, (∀ a ∈ u, 0 < a.s ∧ 0 ≤ a.pb ∧ 0 ≤ a.pe) → (∀ d ∈ xs, 0 < d) →
    ext u xs = (List.zipWith (fun d (a : UAxis) => (d - 1) * a.s + 1 + a.pb.toNat + a.pe.toNat) xs u).map
      fun (j : ℕ) => (j : ℤ)
  | [], xs, _, _ => by cases xs <;> rfl
  | _ :: _, [], _, _ => rfl
  | a :: u, d :: xs, h, hd => by
    have := ext_nat (u := u) (xs := xs) (fun b hb => h b (by simp [hb])) fun e he => hd e (by simp [he])
    unfold ext at this ⊢
    rw [List.zipWith_cons_cons, List.zipWith_cons_cons, this, List.map_cons]
    congr 1
    have h1 := hd d (by simp)
    push_cast [Nat.cast_sub (show 1 ≤ d from h1)]
    rw [Int.toNat_of_nonneg (h a (by simp)).2.1, Int.toNat_of_nonneg (h a (by simp)).2.2]
    ring

theorem tgt_inBounds : ∀ {u : List UAxis} {xs i : List ℕ}, xs.length = u.length → InBounds xs i →
    InBounds (List.zipWith (fun d (a : UAxis) => (d - 1) * a.s + 1 + a.pb.toNat + a.pe.toNat) xs u)
      (List.zipWith (fun i (a : UAxis) => i * a.s + a.pb.toNat) i u)
  | [], [], i, _, hi => by simp at hi; subst hi; exact inBounds_nil
  | a :: u, d :: xs, i, hl, hi => by
    cases i with
    | nil => simp at hi
    | cons i is =>
      rw [inBounds_cons] at hi
      rw [List.zipWith_cons_cons, List.zipWith_cons_cons, inBounds_cons]
      refine ⟨?_, tgt_inBounds (by simpa using hl) hi.2⟩
      have : i * a.s ≤ (d - 1) * a.s := Nat.mul_le_mul_right _ (by omega)
      omega
  | [], _ :: _, _, hl, _ => by simp at hl
  | _ :: _, [], _, hl, _ => by simp at hl

theorem upsample_nonneg {x : Tensor V} {u : List UAxis} {n c : ℕ} {xs : List ℕ} (hx : x.shape = n :: c :: xs)
    (hl : xs.length = u.length) (hxs : ∀ d ∈ xs, 0 < d) (hu : ∀ a ∈ u, 0 < a.s ∧ 0 ≤ a.pb ∧ 0 ≤ a.pe) :
    ∃ y, upsampleAndPad A x u = some y ∧
      y.shape = n :: c :: List.zipWith (fun d (a : UAxis) => (d - 1) * a.s + 1 + a.pb.toNat + a.pe.toNat) xs u ∧
      ∀ n' c' q, InBounds y.shape (n' :: c' :: q) →
        (∀ i, InBounds xs i → q = List.zipWith (fun i (a : UAxis) => i * a.s + a.pb.toNat) i u →
          y.get (n' :: c' :: q) = x.get (n' :: c' :: i)) ∧
        ((∀ i, InBounds xs i → q ≠ List.zipWith (fun i (a : UAxis) => i * a.s + a.pb.toNat) i u) →
          y.get (n' :: c' :: q) = A.ofInt 0) := by
  obtain ⟨y, h1, h2, h3⟩ := upsample_spec (A := A) hx hl (fun a ha => (hu a ha).1) (ext_nat hu hxs)
    (fun i hi => by rw [tgt_nat hu]; exact inZ_cast.2 (tgt_inBounds hl hi))
  refine ⟨y, h1, h2, ?_⟩
  intro n' c' q hq
  rw [h2, inBounds_cons, inBounds_cons] at hq
  obtain ⟨g1, g2⟩ := h3 n' c' q hq.1 hq.2.1 hq.2.2
  refine ⟨fun i hi e => g1 i hi (by rw [tgt_nat hu, e]), fun hno => g2 fun i hi e => hno i hi ?_⟩
  rw [tgt_nat hu] at e
  exact (cast_inj e).symm

end Verif.ConvTranspose
