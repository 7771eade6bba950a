import Verif.Elems.BlockLemmas

namespace Verif.Elems

variable {W : Type}

/-! ## Gather -/

theorem copyN_spec {src : List W} {i n : Nat} (o : Nat) (h : i + n ≤ src.length) :
    ∃ ws, copyN src (i : Int) n o = some ws ∧
      ∀ k v, (k, v) ∈ ws ↔ ∃ t, t < n ∧ k = o + t ∧ src[i + t]? = some v := by
  unfold copyN
  rw [if_pos ⟨by omega, by simpa using h⟩]
  refine ⟨_, rfl, fun k v => ?_⟩
  simp only [Int.toNat_natCast]
  constructor
  · intro hm
    obtain ⟨t, ht, hz⟩ := List.getElem_of_mem hm
    have ht' : t < n := by simp at ht; omega
    rw [List.getElem_zip, Prod.mk.injEq] at hz
    refine ⟨t, ht', by rw [← hz.1]; simp, by rw [← hz.2]; simp⟩
  · rintro ⟨t, h1, h2, h3⟩
    obtain ⟨hlt, hv⟩ := List.getElem?_eq_some_iff.1 h3
    rw [List.mem_iff_getElem]
    refine ⟨t, by simp; omega, ?_⟩
    rw [List.getElem_zip]
    simp [hv, h2]

theorem gatherBlocks_spec (src : List W) (post inLen : Nat) (offs : List Nat) (i : Nat)
    (h : ∀ b, b < offs.length → i + b * inLen + post ≤ src.length) :
    ∃ ws, gatherBlocks src post inLen offs (i : Int) = some ws ∧
      ∀ k v, (k, v) ∈ ws ↔ ∃ b t o, offs[b]? = some o ∧ t < post ∧ k = o + t ∧
        src[i + b * inLen + t]? = some v := by
  induction offs generalizing i with
  | nil => exact ⟨[], rfl, by simp⟩
  | cons o os ih =>
    obtain ⟨ws1, a1, a2⟩ := copyN_spec (src := src) (i := i) (n := post) o
      (by simpa using h 0 (by simp))
    obtain ⟨ws2, b1, b2⟩ := ih (i + inLen) (fun b hb => by
      have := h (b + 1) (by simp; omega)
      have e : i + (b + 1) * inLen + post = i + inLen + b * inLen + post := by ring
      omega)
    refine ⟨ws1 ++ ws2, ?_, fun k v => ?_⟩
    · unfold gatherBlocks
      rw [a1, Option.bind_some]
      have : ((i : Int) + (inLen : Int)) = ((i + inLen : Nat) : Int) := by push_cast; rfl
      rw [this, b1]; rfl
    · rw [List.mem_append, a2, b2]
      constructor
      · rintro (⟨t, h1, h2, h3⟩ | ⟨b, t, o', h1, h2, h3, h4⟩)
        · exact ⟨0, t, o, by simp, h1, h2, by simpa using h3⟩
        · refine ⟨b + 1, t, o', by simpa using h1, h2, h3, ?_⟩
          rw [← h4]; congr 1; ring
      · rintro ⟨b, t, o', h1, h2, h3, h4⟩
        cases b with
        | zero =>
          simp only [List.getElem?_cons_zero, Option.some.injEq] at h1
          subst h1
          exact Or.inl ⟨t, h2, h3, by simpa using h4⟩
        | succ b =>
          refine Or.inr ⟨b, t, o', by simpa using h1, h2, h3, ?_⟩
          rw [← h4]; congr 1; ring

/-- Counting an index from the end when it is negative. -/
def wrapIdx (n : Nat) (i : Int) : Nat := (if i < 0 then i + n else i).toNat

theorem wrapIdx_lt {n : Nat} {i : Int} (h : -(n : Int) ≤ i ∧ i < n) : wrapIdx n i < n := by
  unfold wrapIdx; split <;> omega

theorem gatherLoop_spec (src : List W) (pre A P N : Nat) (hsrc : src.length = pre * (A * P))
    (idxs : List Int) (hr : ∀ i ∈ idxs, -(A : Int) ≤ i ∧ i < A) (s : Nat)
    (hs : s + idxs.length ≤ N) :
    ∃ ws, gatherLoop src (pre * (N * P)) A P (A * P) (N * P) (s * P) idxs = some ws ∧
      ∀ k v, (k, v) ∈ ws ↔ ∃ (q : Nat) (ix : Int) (b t : Nat), idxs[q]? = some ix ∧ b < pre ∧
        t < P ∧ k = b * (N * P) + (s + q) * P + t ∧
        src[b * (A * P) + (wrapIdx A ix * P + t)]? = some v := by
  induction idxs generalizing s with
  | nil => exact ⟨[], rfl, by simp⟩
  | cons ix idxs ih =>
    rw [List.length_cons] at hs
    obtain ⟨ws2, p1, p2⟩ := ih (fun i hi => hr i (by simp [hi])) (s + 1) (by omega)
    have hw := wrapIdx_lt (hr ix (by simp))
    have hadj : (if ix < 0 then ix + (A : Int) else ix) * (P : Int) =
        ((wrapIdx A ix * P : Nat) : Int) := by
      have hnn : 0 ≤ (if ix < 0 then ix + (A : Int) else ix) := by
        have := hr ix (by simp)
        split <;> omega
      unfold wrapIdx
      push_cast
      rw [Int.toNat_of_nonneg hnn]
    have key : ∃ ws, gatherBlocks src P (A * P) (blockOffsets (pre * (N * P)) (N * P) (s * P))
        ((wrapIdx A ix * P : Nat) : Int) = some ws ∧
        ∀ k v, (k, v) ∈ ws ↔ ∃ (b t : Nat), b < pre ∧ t < P ∧ k = b * (N * P) + s * P + t ∧
          src[b * (A * P) + (wrapIdx A ix * P + t)]? = some v := by
      rcases Nat.eq_zero_or_pos P with hP | hP
      · subst hP
        rw [blockOffsets_of_ge (by simp)]
        exact ⟨[], rfl, by simp⟩
      · have hlt : s * P < N * P := Nat.mul_lt_mul_of_pos_right (by omega) hP
        rw [blockOffsets_spec hlt]
        obtain ⟨ws, w1, w2⟩ := gatherBlocks_spec src P (A * P)
          ((List.range pre).map fun b => s * P + b * (N * P)) (wrapIdx A ix * P) (by
            intro b hb
            have hb' : b < pre := by simpa using hb
            rw [hsrc]
            have h1 : (b + 1) * (A * P) ≤ pre * (A * P) := Nat.mul_le_mul_right _ hb'
            have h2 : (wrapIdx A ix + 1) * P ≤ A * P := Nat.mul_le_mul_right _ hw
            have e1 : (b + 1) * (A * P) = b * (A * P) + A * P := by ring
            have e2 : (wrapIdx A ix + 1) * P = wrapIdx A ix * P + P := by ring
            omega)
        refine ⟨ws, w1, fun k v => ?_⟩
        rw [w2]
        constructor
        · rintro ⟨b, t, o, h1, h2, h3, h4⟩
          rw [List.getElem?_map, Option.map_eq_some_iff] at h1
          obtain ⟨b', hb1, rfl⟩ := h1
          have hb : b < pre := by
            have := (List.getElem?_eq_some_iff.1 hb1).1
            simpa using this
          have hbb : b' = b := by
            rw [List.getElem?_eq_getElem (by simpa using hb)] at hb1
            simpa using hb1.symm
          subst hbb
          refine ⟨b', t, hb, h2, by omega, ?_⟩
          rw [← h4]; congr 1; ring
        · rintro ⟨b, t, h1, h2, h3, h4⟩
          refine ⟨b, t, s * P + b * (N * P), ?_, h2, by omega, ?_⟩
          · rw [List.getElem?_map, List.getElem?_range h1]; rfl
          · rw [← h4]; congr 1; ring
    obtain ⟨ws, w1, w2⟩ := key
    refine ⟨ws ++ ws2, ?_, fun k v => ?_⟩
    · unfold gatherLoop
      simp only [hadj, w1, Option.bind_some]
      have : s * P + P = (s + 1) * P := by ring
      rw [this, p1]; rfl
    · rw [List.mem_append, w2, p2]
      constructor
      · rintro (⟨b, t, h1, h2, h3, h4⟩ | ⟨q, ix', b, t, h0, h1, h2, h3, h4⟩)
        · exact ⟨0, ix, b, t, by simp, h1, h2, by simpa using h3, h4⟩
        · exact ⟨q + 1, ix', b, t, by simpa using h0, h1, h2, by rw [h3]; ring, h4⟩
      · rintro ⟨q, ix', b, t, h0, h1, h2, h3, h4⟩
        cases q with
        | zero =>
          simp only [List.getElem?_cons_zero, Option.some.injEq] at h0
          subst h0
          exact Or.inl ⟨b, t, h1, h2, by simpa using h3, h4⟩
        | succ q =>
          exact Or.inr ⟨q, ix', b, t, by simpa using h0, h1, h2, by rw [h3]; ring, h4⟩

theorem rowMajor_three {pre qs post ip q jp : List Nat} (hi : InBounds pre ip)
    (hq : InBounds qs q) :
    rowMajor (pre ++ qs ++ post) (ip ++ q ++ jp) =
      rowMajor pre ip * (qs.prod * post.prod) + rowMajor qs q * post.prod + rowMajor post jp := by
  rw [rowMajor_append (by simp [hi.length, hq.length]), rowMajor_append hi.length]
  ring

theorem gather_spec {e : Elms W} (hB : Built e) {ix : Elms Int} (hI : Built ix)
    {pre post : List Nat} {A : Nat} (hs : e.shape = pre ++ A :: post)
    (hr : ∀ q i, InBounds ix.shape q → value ix q = some i → -(A : Int) ≤ i ∧ i < A) :
    ∃ r, gather e ix pre.length = some r ∧ Built r ∧ r.shape = pre ++ ix.shape ++ post ∧
      ∀ ip q jp i, InBounds pre ip → InBounds ix.shape q → InBounds post jp → value ix q = some i →
        value r (ip ++ q ++ jp) = value e (ip ++ wrapIdx A i :: jp) := by
  have hax : e.shape.getD pre.length 0 = A := by rw [hs]; simp
  have hdrop : e.shape.drop (pre.length + 1) = post := by rw [hs, ← List.drop_drop]; simp
  have htake : e.shape.take pre.length = pre := by rw [hs]; simp
  obtain ⟨src, s1, s2, s3⟩ := hB.wf.wideNums_value
  obtain ⟨idxs, i1, i2, i3⟩ := hI.wf.wideNums_value
  unfold gather
  rw [if_neg (by rw [hs]; simp)]
  simp only [hax, hdrop, htake, s1, i1, Option.bind_some]
  have hsrc : src.length = pre.prod * (A * post.prod) := by rw [s2, hs]; simp
  have hsize : (pre ++ ix.shape ++ post).prod = pre.prod * (idxs.length * post.prod) := by
    rw [i2]; simp [Nat.mul_assoc]
  obtain ⟨ws, w1, w2⟩ := gatherLoop_spec src pre.prod A post.prod idxs.length hsrc idxs (by
    intro i hi
    obtain ⟨k, hk, rfl⟩ := List.getElem_of_mem hi
    have hk' : k < ix.shape.prod := by omega
    refine hr (unrank ix.shape k) _ (unrank_inBounds hk') ?_
    rw [← i3 _ (unrank_inBounds hk'), rowMajor_unrank hk', List.getElem?_eq_getElem hk]) 0 (by omega)
  rw [Nat.zero_mul] at w1
  rw [← hsize] at w1
  rw [w1, Option.bind_some]
  have w2' : ∀ k v, (k, v) ∈ ws ↔ ∃ (ip q jp : List Nat) (i : Int), InBounds pre ip ∧
      InBounds ix.shape q ∧ InBounds post jp ∧ value ix q = some i ∧
      k = rowMajor (pre ++ ix.shape ++ post) (ip ++ q ++ jp) ∧
      value e (ip ++ wrapIdx A i :: jp) = some v := by
    intro k v
    rw [w2]
    constructor
    · rintro ⟨q, i, b, t, h0, h1, h2, h3, h4⟩
      have hq : q < ix.shape.prod := by
        have := (List.getElem?_eq_some_iff.1 h0).1
        omega
      have hv : value ix (unrank ix.shape q) = some i := by
        rw [← i3 _ (unrank_inBounds hq), rowMajor_unrank hq]; exact h0
      have hw := wrapIdx_lt (hr _ _ (unrank_inBounds hq) hv)
      refine ⟨unrank pre b, unrank ix.shape q, unrank post t, i, unrank_inBounds h1,
        unrank_inBounds hq, unrank_inBounds h2, hv, ?_, ?_⟩
      · rw [rowMajor_three (unrank_inBounds h1) (unrank_inBounds hq), rowMajor_unrank h1,
          rowMajor_unrank hq, rowMajor_unrank h2, h3, i2]
        ring
      · rw [← s3 _ (by rw [hs, inBounds_axis (unrank_inBounds h1)]
                       exact ⟨hw, unrank_inBounds h2⟩), hs, rowMajor_axis _ _ (unrank_inBounds h1),
          rowMajor_unrank h1, rowMajor_unrank h2]
        exact h4
    · rintro ⟨ip, q, jp, i, h1, h2, h3, h4, h5, h6⟩
      have hw := wrapIdx_lt (hr _ _ h2 h4)
      refine ⟨rowMajor ix.shape q, i, rowMajor pre ip, rowMajor post jp, ?_, rowMajor_lt h1,
        rowMajor_lt h3, ?_, ?_⟩
      · rw [i3 _ h2]; exact h4
      · rw [h5, rowMajor_three h1 h2, i2]; ring
      · rw [← rowMajor_axis _ _ h1, ← hs, s3 _ (by rw [hs, inBounds_axis h1]; exact ⟨hw, h3⟩)]
        exact h6
  have hb3 : ∀ {ip q jp : List Nat}, InBounds pre ip → InBounds ix.shape q → InBounds post jp →
      InBounds (pre ++ ix.shape ++ post) (ip ++ q ++ jp) := by
    intro ip q jp h1 h2 h3
    rw [inBounds_append (by simp [h1.length, h2.length]), inBounds_append h1.length]
    exact ⟨⟨h1, h2⟩, h3⟩
  have hex : ∀ {ip q jp : List Nat} {i : Int}, InBounds pre ip → InBounds ix.shape q →
      InBounds post jp → value ix q = some i →
      ∃ v, value e (ip ++ wrapIdx A i :: jp) = some v := by
    intro ip q jp i h1 h2 h3 h4
    exact hB.wf.value_some (by
      rw [hs, inBounds_axis h1]; exact ⟨wrapIdx_lt (hr _ _ h2 h4), h3⟩)
  obtain ⟨l, l1, l2, l3⟩ := fill_spec (n := (pre ++ ix.shape ++ post).prod) (ws := ws)
    (by
      rintro ⟨k, v⟩ hw
      obtain ⟨ip, q, jp, i, h1, h2, h3, h4, h5, h6⟩ := (w2' k v).1 hw
      rw [h5]
      exact rowMajor_lt (hb3 h1 h2 h3))
    (by
      intro k hk
      obtain ⟨iq, jp, hidx, h12, h3⟩ := InBounds.split (unrank_inBounds hk)
      obtain ⟨ip, q, rfl, h1, h2⟩ := InBounds.split h12
      obtain ⟨i, hi⟩ := hI.wf.value_some h2
      obtain ⟨v, hv⟩ := hex h1 h2 h3 hi
      refine ⟨v, (w2' k v).2 ⟨ip, q, jp, i, h1, h2, h3, hi, ?_, hv⟩⟩
      rw [← hidx, rowMajor_unrank hk])
    (by
      intro k v v' hv hv'
      obtain ⟨ip, q, jp, i, h1, h2, h3, h4, h5, h6⟩ := (w2' k v).1 hv
      obtain ⟨ip', q', jp', i', g1, g2, g3, g4, g5, g6⟩ := (w2' k v').1 hv'
      have heq := rowMajor_inj (hb3 h1 h2 h3) (hb3 g1 g2 g3) (h5.symm.trans g5)
      obtain ⟨e1, e2⟩ := List.append_inj heq (by simp [h1.length, g1.length, h2.length, g2.length])
      obtain ⟨e3, e4⟩ := List.append_inj e1 (by simp [h1.length, g1.length])
      subst e2; subst e3; subst e4
      rw [h4] at g4
      simp only [Option.some.injEq] at g4
      subst g4
      rw [h6] at g6
      simpa using g6)
  rw [l1, Option.map_some]
  refine ⟨_, rfl, Built.ofBuffer _ _ l2, rfl, ?_⟩
  intro ip q jp i h1 h2 h3 h4
  rw [value_fromWideNums]
  obtain ⟨v, hv⟩ := hex h1 h2 h3 h4
  rw [hv]
  exact l3 _ v ((w2' _ v).2 ⟨ip, q, jp, i, h1, h2, h3, h4, rfl, hv⟩)

/-! ## ScatterND -/

theorem scatter_block {dst upd : List W} {p S : Nat} (hp : p + S ≤ dst.length)
    (hu : S ≤ upd.length) :
    (dst.take p ++ upd.take S ++ dst.drop (p + S)).length = dst.length ∧
    (∀ x : Nat, ¬ (p ≤ x ∧ x < p + S) →
      (dst.take p ++ upd.take S ++ dst.drop (p + S))[x]? = dst[x]?) ∧
    ∀ t : Nat, t < S → (dst.take p ++ upd.take S ++ dst.drop (p + S))[p + t]? = upd[t]? := by
  have hl1 : (dst.take p).length = p := by simp; omega
  have hl2 : (dst.take p ++ upd.take S).length = p + S := by simp; omega
  refine ⟨by simp; omega, ?_, ?_⟩
  · intro x hx
    rcases Nat.lt_or_ge x p with h | h
    · rw [List.append_assoc, List.getElem?_append_left (by omega), List.getElem?_take_of_lt h]
    · rw [List.getElem?_append_right (by omega), hl2, List.getElem?_drop]
      congr 1; omega
  · intro t ht
    rw [List.getElem?_append_left (by omega), List.getElem?_append_right (by omega), hl1,
      List.getElem?_take_of_lt (by omega)]
    congr 1; omega

theorem scatterLoop_spec (strides : List Nat) (nd S n : Nat) (idxs : List Int) (upd dst : List W)
    (hi : idxs.length = n * nd) (hu : upd.length = n * S) (p : Nat → Nat)
    (hp : ∀ k, k < n → (List.zipWith (fun (i : Int) (s : Nat) => i * (s : Int))
      ((idxs.drop (k * nd)).take nd) strides).sum = (p k : Int) ∧ p k + S ≤ dst.length) :
    ∃ r, scatterLoop strides nd S n idxs upd dst = some r ∧ r.length = dst.length ∧
      (∀ x : Nat, (∀ k, k < n → ¬ (p k ≤ x ∧ x < p k + S)) → r[x]? = dst[x]?) ∧
      ∀ k t : Nat, k < n → t < S →
        (∀ k', k < k' → k' < n → ¬ (p k' ≤ p k + t ∧ p k + t < p k' + S)) →
        r[p k + t]? = upd[k * S + t]? := by
  induction n generalizing idxs upd dst p with
  | zero =>
    have : upd = [] := List.length_eq_zero_iff.1 (by simpa using hu)
    subst this
    exact ⟨dst, by simp [scatterLoop], rfl, fun _ _ => rfl, fun k t hk => by omega⟩
  | succ n ih =>
    have e1 : (n + 1) * nd = n * nd + nd := by ring
    have e2 : (n + 1) * S = n * S + S := by ring
    obtain ⟨h0, h0'⟩ := hp 0 (by omega)
    simp only [Nat.zero_mul, List.drop_zero] at h0
    obtain ⟨b1, b2, b3⟩ := scatter_block (dst := dst) (upd := upd) (p := p 0) (S := S) h0' (by omega)
    obtain ⟨r, r1, r2, r3, r4⟩ := ih (idxs.drop nd) (upd.drop S)
      (dst.take (p 0) ++ upd.take S ++ dst.drop (p 0 + S)) (by simp; omega) (by simp; omega)
      (fun k => p (k + 1)) (by
        intro k hk
        obtain ⟨h1, h2⟩ := hp (k + 1) (by omega)
        rw [b1, List.drop_drop]
        refine ⟨?_, h2⟩
        rw [← h1]
        have : nd + k * nd = (k + 1) * nd := by ring
        rw [this])
    refine ⟨r, ?_, by rw [r2, b1], ?_, ?_⟩
    · unfold scatterLoop
      simp only
      rw [if_neg (by simp; omega), h0, if_pos ⟨by omega, by simpa using h0'⟩]
      simp only [Int.toNat_natCast]
      exact r1
    · intro x hx
      rw [r3 x (fun k hk => hx (k + 1) (by omega)), b2 x (hx 0 (by omega))]
    · intro k t hk ht hlater
      cases k with
      | zero =>
        rw [r3 _ (fun k hk => hlater (k + 1) (by omega) (by omega)), b3 t ht]
        simp
      | succ k =>
        rw [r4 k t (by omega) ht (fun k' h1 h2 => hlater (k' + 1) (by omega) (by omega)),
          List.getElem?_drop]
        congr 1; ring

theorem strides_take_pos {dims slice tup : List Nat} (h : InBounds dims tup) :
    (List.zipWith (fun (i : Int) (s : Nat) => i * (s : Int)) (tup.map Int.ofNat)
      ((defaultStrides (dims ++ slice)).take dims.length)).sum =
      ((rowMajor dims tup * slice.prod : Nat) : Int) := by
  induction dims generalizing tup with
  | nil => simp [inBounds_nil_left.1 h, rowMajor]
  | cons d ds ih =>
    cases tup with
    | nil => simp at h
    | cons i is =>
      obtain ⟨h1, h2⟩ := inBounds_cons.1 h
      simp only [List.cons_append, defaultStrides, List.length_cons, List.take_succ_cons,
        List.map_cons, List.zipWith_cons_cons, List.sum_cons, ih h2, rowMajor]
      by_cases hd : d = 1
      · have : i = 0 := by omega
        subst this
        simp
      · simp only [if_neg hd, List.prod_append]
        push_cast
        simp only [Int.ofNat_eq_natCast]
        ring

/-- The index tuple a scatter takes from the last axis of its indices. -/
def tupleAt (ix : Elms Int) (nd : Nat) (o : List Nat) : Option (List Int) :=
  (List.range nd).mapM fun c => value ix (o ++ [c])

theorem scatterND_spec {e upd : Elms W} {ix : Elms Int} (hB : Built e) (hU : Built upd)
    (hI : Built ix) {dims slice outer : List Nat} (hs : e.shape = dims ++ slice)
    (hus : upd.shape = outer ++ slice) (his : ix.shape = outer ++ [dims.length])
    (tup : List Nat → List Nat)
    (htup : ∀ o, InBounds outer o → tupleAt ix dims.length o = some ((tup o).map Int.ofNat) ∧
      InBounds dims (tup o)) :
    ∃ r, scatterND e ix upd = some r ∧ Built r ∧ r.shape = e.shape ∧
      (∀ t j, InBounds dims t → InBounds slice j → (∀ o, InBounds outer o → tup o ≠ t) →
        value r (t ++ j) = value e (t ++ j)) ∧
      ∀ o j, InBounds outer o → InBounds slice j →
        (∀ o', InBounds outer o' → tup o' = tup o → rowMajor outer o' ≤ rowMajor outer o) →
        value r (tup o ++ j) = value upd (o ++ j) := by
  obtain ⟨dst, d1, d2, d3⟩ := hB.wf.wideNums_value
  obtain ⟨us, u1, u2, u3⟩ := hU.wf.iter_eq
  obtain ⟨idxs, i1, i2, i3⟩ := hI.wf.wideNums_value
  unfold scatterND
  have hlast : ix.shape.getLast? = some dims.length := by rw [his]; simp
  have hdl : ix.shape.dropLast = outer := by rw [his]; simp
  have hsl : (upd.shape.drop outer.length) = slice := by rw [hus]; simp
  rw [hlast]
  simp only [hdl, hsl, d1, u1, i1, Option.bind_some]
  have hdst : dst.length = dims.prod * slice.prod := by rw [d2, hs]; simp
  have htk : ∀ k, k < outer.prod →
      (idxs.drop (k * dims.length)).take dims.length = (tup (unrank outer k)).map Int.ofNat := by
    intro k hk
    have hb := unrank_inBounds hk
    obtain ⟨h1, h2⟩ := htup _ hb
    have hlen : (tup (unrank outer k)).length = dims.length := h2.length
    have hle : (k + 1) * dims.length ≤ outer.prod * dims.length := Nat.mul_le_mul_right _ hk
    have e1 : (k + 1) * dims.length = k * dims.length + dims.length := by ring
    have hil : idxs.length = outer.prod * dims.length := by rw [i2, his]; simp
    unfold tupleAt at h1
    obtain ⟨r, r1, r2, r3⟩ := mapM_total (l := List.range dims.length)
      (f := fun c => value ix (unrank outer k ++ [c])) (by
        intro c hc
        exact hI.wf.value_some (by
          rw [his, inBounds_axis hb]; exact ⟨by simpa using hc, by simp⟩))
    rw [h1] at r1
    simp only [Option.some.injEq] at r1
    rw [r1]
    apply List.ext_getElem?
    intro c
    by_cases hc : c < dims.length
    · obtain ⟨y, y1, y2⟩ := r3 c c (by rw [List.getElem?_range hc])
      rw [y2, List.getElem?_take_of_lt hc, List.getElem?_drop, ← y1, ← i3 _ (by
        rw [his, inBounds_axis hb]; exact ⟨hc, by simp⟩), his, rowMajor_axis _ _ hb,
        rowMajor_unrank hk]
      simp [rowMajor]
    · rw [List.getElem?_eq_none (by simp; omega), List.getElem?_eq_none (by rw [r2]; simp; omega)]
  have hpos : ∀ k, k < outer.prod → rowMajor dims (tup (unrank outer k)) * slice.prod + slice.prod ≤
      dst.length := by
    intro k hk
    have h1 := rowMajor_lt (htup _ (unrank_inBounds hk)).2
    have h2 : (rowMajor dims (tup (unrank outer k)) + 1) * slice.prod ≤ dims.prod * slice.prod :=
      Nat.mul_le_mul_right _ h1
    have e1 : (rowMajor dims (tup (unrank outer k)) + 1) * slice.prod =
      rowMajor dims (tup (unrank outer k)) * slice.prod + slice.prod := by ring
    omega
  obtain ⟨r, r1, r2, r3, r4⟩ := scatterLoop_spec ((defaultStrides e.shape).take dims.length)
    dims.length slice.prod outer.prod idxs us dst (by rw [i2, his]; simp) (by rw [u2, hus]; simp)
    (fun k => rowMajor dims (tup (unrank outer k)) * slice.prod) (by
      intro k hk
      refine ⟨?_, hpos k hk⟩
      rw [htk k hk, hs]
      exact strides_take_pos (htup _ (unrank_inBounds hk)).2)
  rw [r1, Option.map_some]
  -- a block is hit exactly by its own tuple
  have hit : ∀ (t t' j : List Nat), InBounds dims t → InBounds dims t' → InBounds slice j →
      (rowMajor dims t' * slice.prod ≤ rowMajor dims t * slice.prod + rowMajor slice j ∧
       rowMajor dims t * slice.prod + rowMajor slice j < rowMajor dims t' * slice.prod + slice.prod) →
      t' = t := by
    intro t t' j h1 h2 h3 ⟨h4, h5⟩
    have hlt := rowMajor_lt h3
    apply rowMajor_inj h2 h1
    have hS : 0 < slice.prod := by omega
    have q1 : (rowMajor dims t * slice.prod + rowMajor slice j) / slice.prod = rowMajor dims t := by
      rw [Nat.mul_comm, Nat.mul_add_div hS, Nat.div_eq_of_lt hlt]; rfl
    have q2 : rowMajor dims t' ≤ (rowMajor dims t * slice.prod + rowMajor slice j) / slice.prod :=
      (Nat.le_div_iff_mul_le hS).2 h4
    have q3 : (rowMajor dims t * slice.prod + rowMajor slice j) / slice.prod < rowMajor dims t' + 1 :=
      (Nat.div_lt_iff_lt_mul hS).2 (by rw [Nat.add_mul, Nat.one_mul]; exact h5)
    omega
  refine ⟨_, rfl, Built.ofBuffer _ _ (by rw [r2, d2]), rfl, ?_, ?_⟩
  · intro t j h1 h2 h3
    rw [value_fromWideNums, ← d3 _ (by rw [hs, inBounds_append h1.length]; exact ⟨h1, h2⟩), hs,
      rowMajor_append h1.length]
    apply r3
    intro k hk hc
    exact h3 _ (unrank_inBounds hk) (hit t _ j h1 (htup _ (unrank_inBounds hk)).2 h2 hc)
  · intro o j h1 h2 h3
    have ht := (htup o h1).2
    have hk := rowMajor_lt h1
    have hu := unrank_rowMajor h1
    have := r4 (rowMajor outer o) (rowMajor slice j) hk (rowMajor_lt h2) (by
      intro k' hlt hk' hc
      rw [hu] at hc
      have := hit (tup o) _ j ht (htup _ (unrank_inBounds hk')).2 h2 hc
      have := h3 _ (unrank_inBounds hk') this
      rw [rowMajor_unrank hk'] at this
      omega)
    rw [hu] at this
    rw [value_fromWideNums, hs, rowMajor_append ht.length, this,
      ← u3 _ (by rw [hus, inBounds_append h1.length]; exact ⟨h1, h2⟩), hus,
      rowMajor_append h1.length]

/-! ## Slice -/

/-- Coordinates a slice reads. -/
def sliceIdx : List Int → List Int → List Nat → List Int
  | a :: as, s :: ss, i :: is => (a + i * s) :: sliceIdx as ss is
  | _, _, _ => []

theorem sliceIdx_length {starts steps : List Int} {idx : List Nat} {n : Nat}
    (h1 : starts.length = n) (h2 : steps.length = n) (h3 : idx.length = n) :
    (sliceIdx starts steps idx).length = n := by
  induction n generalizing starts steps idx with
  | zero =>
    rw [List.length_eq_zero_iff] at h1; subst h1; simp [sliceIdx]
  | succ n ih =>
    match starts, steps, idx with
    | [], _, _ => simp at h1
    | _, [], _ => simp at h2
    | _, _, [] => simp at h3
    | a :: as, s :: ss, i :: is =>
      simp only [sliceIdx, List.length_cons]
      rw [ih (by simpa using h1) (by simpa using h2) (by simpa using h3)]

theorem slice_pos {starts steps : List Int} {idx k strides : List Nat}
    (h : sliceIdx starts steps idx = k.map Int.ofNat) (h1 : starts.length = strides.length)
    (h2 : steps.length = strides.length) (h3 : idx.length = strides.length) :
    (List.zipWith (fun (a : Int) (s : Nat) => a * (s : Int)) starts strides).sum +
      pos idx (List.zipWith (fun (s : Nat) (t : Int) => (s : Int) * t) strides steps) =
      (posN k strides : Int) := by
  induction strides generalizing starts steps idx k with
  | nil =>
    rw [List.length_nil, List.length_eq_zero_iff] at h1 h2 h3
    subst h1; subst h2; subst h3
    cases k <;> simp [pos, posN]
  | cons s ss ih =>
    match starts, steps, idx, k with
    | [], _, _, _ => simp at h1
    | _, [], _, _ => simp at h2
    | _, _, [], _ => simp at h3
    | _ :: _, _ :: _, _ :: _, [] => simp [sliceIdx] at h
    | a :: as, t :: ts, i :: is, c :: cs =>
      simp only [sliceIdx, List.map_cons, List.cons.injEq] at h
      have := ih h.2 (by simpa using h1) (by simpa using h2) (by simpa using h3)
      simp only [List.zipWith_cons_cons, List.sum_cons, pos, posN]
      have hc : (c : Int) = a + i * t := h.1.symm
      push_cast
      rw [← this, hc]
      ring

theorem slice_spec {e : Elms W} (hB : Built e) {shape : List Nat} {starts steps : List Int}
    (hl : shape.length = e.shape.length) (h1 : starts.length = e.shape.length)
    (h2 : steps.length = e.shape.length)
    (hin : ∀ idx, InBounds shape idx → ∃ k, sliceIdx starts steps idx = k.map Int.ofNat ∧
      InBounds e.shape k) :
    ∃ r, slice e shape starts steps = some r ∧ Built r ∧ r.shape = shape ∧
      ∀ idx k, InBounds shape idx → sliceIdx starts steps idx = k.map Int.ofNat →
        value r idx = value e k := by
  have hw := hB.wf
  unfold slice
  simp only
  rw [stridesRange_spec _ _ (by simp [hw.len, h2, hl]), mapM_map]
  have hread : ∀ idx, InBounds shape idx → ∀ k, sliceIdx starts steps idx = k.map Int.ofNat →
      InBounds e.shape k →
      ((fun v : IdxOffs Unit => getZ e.bufWide
        ((List.zipWith (fun (a : Int) (s : Nat) => a * (s : Int)) starts e.strides).sum + v.offs ())) ∘
        fun idx => (⟨rowMajor shape idx, idx, fun k => pos idx
          (((List.zipWith (fun (s : Nat) (t : Int) => (s : Int) * t) e.strides steps).map
            fun (s : Int) (_ : Unit) => s).map (· k))⟩ : IdxOffs Unit)) idx = value e k := by
    intro idx hi k hk hkb
    simp only [Function.comp_apply, List.map_map]
    rw [show ((fun x : Unit → Int => x ()) ∘ fun (s : Int) (_ : Unit) => s) = id from rfl,
      List.map_id, slice_pos hk (by rw [hw.len, h1]) (by rw [hw.len, h2])
        (by rw [hw.len, hi.length, hl]), getZ_nat, hw.value_eq' hkb]
  obtain ⟨r, r1, r2, r3⟩ := build_spec (S := shape) (f := (fun v : IdxOffs Unit => getZ e.bufWide
        ((List.zipWith (fun (a : Int) (s : Nat) => a * (s : Int)) starts e.strides).sum + v.offs ())) ∘
        fun idx => (⟨rowMajor shape idx, idx, fun k => pos idx
          (((List.zipWith (fun (s : Nat) (t : Int) => (s : Int) * t) e.strides steps).map
            fun (s : Int) (_ : Unit) => s).map (· k))⟩ : IdxOffs Unit)) (by
    intro idx hi
    obtain ⟨k, hk, hkb⟩ := hin idx hi
    rw [hread idx hi k hk hkb]
    exact hw.value_some hkb)
  rw [r1, Option.map_some]
  have hrl : r.length = shape.prod := by
    have := congrArg (Option.map List.length) r1
    obtain ⟨r', q1, q2, -⟩ := mapM_total (l := allIndices shape) (f := (fun v : IdxOffs Unit =>
        getZ e.bufWide
        ((List.zipWith (fun (a : Int) (s : Nat) => a * (s : Int)) starts e.strides).sum + v.offs ())) ∘
        fun idx => (⟨rowMajor shape idx, idx, fun k => pos idx
          (((List.zipWith (fun (s : Nat) (t : Int) => (s : Int) * t) e.strides steps).map
            fun (s : Int) (_ : Unit) => s).map (· k))⟩ : IdxOffs Unit)) (by
        intro idx hx
        obtain ⟨k, hk, hkb⟩ := hin idx (mem_allIndices.1 hx)
        rw [hread idx (mem_allIndices.1 hx) k hk hkb]
        exact hw.value_some hkb)
    rw [r1] at q1
    simp only [Option.some.injEq] at q1
    rw [q1, q2, length_allIndices]
  refine ⟨_, rfl, Built.ofBuffer _ _ hrl, rfl, ?_⟩
  intro idx k hi hk
  rw [r3 idx hi]
  obtain ⟨k', hk', hkb⟩ := hin idx hi
  have : k' = k := by
    rw [hk] at hk'
    exact (List.map_injective_iff.2 (fun a b h => by simpa using h) hk').symm
  subst this
  exact hread idx hi k' hk hkb

end Verif.Elems
