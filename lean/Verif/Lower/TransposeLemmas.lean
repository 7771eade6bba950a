import Verif.Lower.MoveLemmas

/-!
Lemmas on the lowering of Transpose: the view, block and scalar versions.
-/

namespace Verif.Lower

open Verif.Krnl (Buf IE)

variable {R : Type*}

/-- The index tuple with its entries permuted: entry `k` is entry `perm[k]` of `i`. -/
def permuted (perm : List ℕ) (i : Idx) : Idx := perm.map fun p => i.getD p 0

theorem permuted_getD {perm : List ℕ} {i : Idx} {k : ℕ} (h : k < perm.length) :
    (permuted perm i).getD k 0 = i.getD (perm.getD k 0) 0 := by
  unfold permuted
  rw [List.getD_eq_getElem?_getD, List.getElem?_map, List.getElem?_eq_getElem h]
  simp [List.getD_eq_getElem?_getD, h]

theorem permuted_inShape {perm : List ℕ} {dims : List ℤ} {i : Idx} (hp : ∀ p ∈ perm, p < dims.length)
    (hi : InShape i dims) : InShape (permuted perm i) (transposeDims dims perm) := by
  rw [inShape_iff]
  refine ⟨by simp [permuted, transposeDims], fun k hk => ?_⟩
  have hk' : k < perm.length := by simpa [transposeDims] using hk
  rw [permuted_getD hk']
  have e : (transposeDims dims perm).getD k 0 = dims.getD (perm.getD k 0) 0 := permuted_getD (i := dims) hk'
  rw [e]
  refine (inShape_iff.1 hi).2 _ (hp _ ?_)
  rw [List.getD_eq_getElem?_getD, List.getElem?_eq_getElem hk']
  exact List.getElem_mem hk'

theorem perm_lt {perm : List ℕ} {n : ℕ} (hp : perm.Perm (List.range n)) : ∀ p ∈ perm, p < n := by
  intro p h
  exact List.mem_range.1 (hp.mem_iff.1 h)

theorem perm_length {perm : List ℕ} {n : ℕ} (hp : perm.Perm (List.range n)) : perm.length = n := by
  rw [hp.length_eq, List.length_range]

theorem perm_idxOf {perm : List ℕ} {n o : ℕ} (hp : perm.Perm (List.range n)) (ho : o < n) :
    perm.idxOf o < n ∧ perm.getD (perm.idxOf o) 0 = o := by
  have hm : o ∈ perm := hp.mem_iff.2 (List.mem_range.2 ho)
  have hl := List.idxOf_lt_length_of_mem hm
  refine ⟨by rw [perm_length hp] at hl; exact hl, ?_⟩
  rw [List.getD_eq_getElem?_getD, List.getElem?_eq_getElem hl, Option.getD_some]
  exact List.getElem_idxOf hl

theorem permuted_inj {perm : List ℕ} {n : ℕ} (hp : perm.Perm (List.range n)) {i j : Idx}
    (hi : i.length = n) (hj : j.length = n) (h : permuted perm i = permuted perm j) : i = j := by
  refine ext_getD (by rw [hi, hj]) fun k hk => ?_
  rw [hj] at hk
  obtain ⟨h1, h2⟩ := perm_idxOf hp hk
  have := congrArg (fun l => l.getD (perm.idxOf k) 0) h
  rw [permuted_getD (by rw [perm_length hp]; exact h1), permuted_getD (by rw [perm_length hp]; exact h1), h2] at this
  exact this

/-- Every index of the output is the permutation of an index of the input. -/
theorem permuted_surj {perm : List ℕ} {dims : List ℤ} (hp : perm.Perm (List.range dims.length)) {o : Idx}
    (ho : InShape o (transposeDims dims perm)) :
    InShape ((List.range dims.length).map fun k => o.getD (perm.idxOf k) 0) dims ∧
      permuted perm ((List.range dims.length).map fun k => o.getD (perm.idxOf k) 0) = o := by
  have hlen : (transposeDims dims perm).length = dims.length := by
    unfold transposeDims; rw [List.length_map, perm_length hp]
  constructor
  · rw [inShape_iff]
    refine ⟨by simp, fun k hk => ?_⟩
    rw [getD_map_range _ _ hk]
    obtain ⟨h1, h2⟩ := perm_idxOf hp hk
    have h3 := (inShape_iff.1 ho).2 (perm.idxOf k) (by rw [hlen]; exact h1)
    have e : (transposeDims dims perm).getD (perm.idxOf k) 0 = dims.getD (perm.getD (perm.idxOf k) 0) 0 :=
      permuted_getD (i := dims) (by rw [perm_length hp]; exact h1)
    rw [e, h2] at h3
    exact h3
  · refine ext_getD (by rw [ho.length]; simp [permuted, transposeDims]) fun k hk => ?_
    rw [ho.length, hlen] at hk
    have hk' : k < perm.length := by rw [perm_length hp]; exact hk
    rw [permuted_getD hk']
    have hpk : perm.getD k 0 < dims.length := by
      rw [List.getD_eq_getElem?_getD, List.getElem?_eq_getElem hk']
      exact perm_lt hp _ (List.getElem_mem hk')
    rw [getD_map_range _ _ hpk]
    congr 1
    have hnd : perm.Nodup := hp.nodup_iff.2 List.nodup_range
    rw [List.getD_eq_getElem?_getD, List.getElem?_eq_getElem hk', Option.getD_some]
    exact hnd.idxOf_getElem k hk'

/-! ### Scalar version -/

theorem filter_unique {α : Type*} {L : List α} (hL : L.Nodup) {p : α → Bool} {a : α} (ha : a ∈ L) (hpa : p a)
    (hu : ∀ b ∈ L, p b → b = a) : L.filter p = [a] := by
  have hm : a ∈ L.filter p := List.mem_filter.2 ⟨ha, hpa⟩
  have hall : ∀ b ∈ L.filter p, b = a := fun b hb => hu b (List.mem_filter.1 hb).1 (List.mem_filter.1 hb).2
  have hnd := hL.filter p
  match hL' : L.filter p, hm, hall, hnd with
  | [], hm, _, _ => simp at hm
  | [b], _, hall, _ => rw [hall b (by simp)]
  | b :: c :: l, _, hall, hnd =>
    rw [hall b (by simp), hall c (by simp)] at hnd
    simp at hnd

theorem reversePermute_eq {perm : List ℕ} {n : ℕ} (hp : perm.Perm (List.range n)) :
    reversePermute n perm = some ((List.range n).map fun o => perm.idxOf o) := by
  unfold reversePermute
  refine mapM_some _ _ _ fun o ho => ?_
  have ho' := List.mem_range.1 ho
  obtain ⟨h1, h2⟩ := perm_idxOf hp ho'
  have : ((List.range n).filter fun i => decide (perm.getD i 0 = o)) = [perm.idxOf o] := by
    refine filter_unique List.nodup_range (List.mem_range.2 h1) (by simpa using h2) fun b hb hbo => ?_
    have hb' := List.mem_range.1 hb
    have hbl : b < perm.length := by rw [perm_length hp]; exact hb'
    have hbo' : perm.getD b 0 = o := by simpa using hbo
    rw [List.getD_eq_getElem?_getD, List.getElem?_eq_getElem hbl, Option.getD_some] at hbo'
    rw [← hbo']
    exact ((hp.nodup_iff.2 List.nodup_range).idxOf_getElem b hbl).symm
  simp only [this]

theorem scalarTranspose_spec {data : Mem R} {perm : List ℕ} (junk : Idx → R)
    (hp : perm.Perm (List.range data.shape.length)) :
    ∃ o, scalarTranspose data perm junk = some o ∧ o.shape = transposeDims data.shape perm ∧
      ∀ i, InShape i data.shape → o.data (permuted perm i) = data.data i := by
  obtain ⟨o, e, h1, h2⟩ := fill_spec (⟨transposeDims data.shape perm, junk⟩ : Mem R)
    (fun store => data.load (((List.range data.shape.length).map fun o => perm.idxOf o).map fun r => store.getD r 0))
    (fun store => data.data ((List.range data.shape.length).map fun k => store.getD (perm.idxOf k) 0))
    (by
      intro s hs
      rw [List.map_map]
      exact mem_load (permuted_surj hp hs).1)
  refine ⟨o, ?_, h1, ?_⟩
  · unfold scalarTranspose
    rw [reversePermute_eq hp, Option.bind_some]
    exact e
  · intro i hi
    have hin := permuted_inShape (perm_lt hp) hi
    rw [h2 _ hin]
    congr 1
    exact permuted_inj hp (by simp) hi.length (permuted_surj hp hin).2

/-! ### View -/

theorem lin_filter (d x : ℕ → ℤ) (one : ℕ → Bool) : ∀ L : List ℕ,
    (∀ a ∈ L, one a = true → d a = 1 ∧ x a = 0) →
    numel (L.map d) = numel ((L.filter fun a => !one a).map d) ∧
      lin (L.map d) (L.map x) = lin ((L.filter fun a => !one a).map d) ((L.filter fun a => !one a).map x)
  | [], _ => ⟨rfl, rfl⟩
  | a :: L, h => by
    obtain ⟨h1, h2⟩ := lin_filter d x one L fun b hb => h b (by simp [hb])
    by_cases ha : one a = true
    · obtain ⟨h3, h4⟩ := h a (by simp) ha
      rw [List.filter_cons_of_neg (by simp [ha]), List.map_cons, List.map_cons, numel_cons, lin, h3, h4]
      exact ⟨by rw [h1]; ring, by rw [h2]; ring⟩
    · rw [List.filter_cons_of_pos (by simpa using ha)]
      simp only [List.map_cons, numel_cons, lin]
      exact ⟨by rw [h1], by rw [h1, h2]⟩

theorem view_spec {data : Mem R} {perm : List ℕ} {isOne : ℕ → Bool}
    (hp : perm.Perm (List.range data.shape.length))
    (hone : ∀ a < data.shape.length, isOne a = true → data.shape.getD a 0 = 1)
    (hv : canBeViewOp data.shape.length isOne perm = true) {i : Idx} (hi : InShape i data.shape) :
    (ofFlat (transposeDims data.shape perm) data.flat).data (permuted perm i) = data.data i := by
  have hv' : (List.range data.shape.length).filter (fun a => !isOne a) = perm.filter fun a => !isOne a := by
    simpa [canBeViewOp] using hv
  have hz : ∀ a < data.shape.length, isOne a = true → data.shape.getD a 0 = 1 ∧ i.getD a 0 = 0 := by
    intro a ha h
    have h1 := hone a ha h
    have h2 := (inShape_iff.1 hi).2 a ha
    exact ⟨h1, by omega⟩
  obtain ⟨_, h1⟩ := lin_filter (fun a => data.shape.getD a 0) (fun a => i.getD a 0) isOne
    (List.range data.shape.length) fun a ha => hz a (List.mem_range.1 ha)
  obtain ⟨_, h2⟩ := lin_filter (fun a => data.shape.getD a 0) (fun a => i.getD a 0) isOne
    perm fun a ha => hz a (perm_lt hp a ha)
  have e : lin (transposeDims data.shape perm) (permuted perm i) = lin data.shape i := by
    unfold transposeDims permuted
    rw [h2, ← hv', ← h1, map_getD_range]
    congr 1
    have := map_getD_range i
    rw [hi.length] at this
    exact this
  unfold ofFlat Mem.flat
  simp only
  rw [e, unlin_lin hi]

/-! ### Block version -/

theorem offset_sum (x D : ℕ → ℤ) (n : ℕ) :
    (List.range n).foldl (fun e i => e + x i * D i) 0 = ((List.range n).map fun i => x i * D i).sum := by
  have key : ∀ (L : List ℕ) (z : ℤ), L.foldl (fun e i => e + x i * D i) z = z + (L.map fun i => x i * D i).sum := by
    intro L
    induction L with
    | nil => intro z; simp
    | cons a L ih => intro z; rw [List.foldl_cons, ih, List.map_cons, List.sum_cons]; ring
  rw [key, zero_add]

/-- Sum of the indices times the strides of a prefix of the dimensions. -/
theorem offset_lin (B : List ℤ) : ∀ (A : List ℤ) (x : Idx), x.length = A.length →
    ((List.range A.length).map fun i => x.getD i 0 * numel ((A ++ B).drop (i + 1))).sum = lin A x * numel B
  | [], [], _ => by simp [lin]
  | [], _ :: _, h => by simp at h
  | _ :: _, [], h => by simp at h
  | d :: A, x :: xs, h => by
    have ih := offset_lin B A xs (by simpa using h)
    rw [List.length_cons, List.range_succ_eq_map, List.map_cons, List.sum_cons, List.map_map]
    have : (List.map ((fun i => (x :: xs).getD i 0 * numel ((d :: A ++ B).drop (i + 1))) ∘ Nat.succ)
        (List.range A.length)).sum = lin A xs * numel B := by
      rw [← ih]; rfl
    rw [this, lin]
    simp only [List.getD_cons_zero, zero_add, List.cons_append, List.drop_succ_cons, List.drop_zero,
      numel_append]
    ring

theorem strides_getD (dims : List ℤ) {k : ℕ} (h : k < dims.length) :
    (strides dims).getD k 0 = numel (dims.drop (k + 1)) := getD_map_range _ _ h

theorem srcOffset_eq {A B : List ℤ} {x : Idx} (h : x.length = A.length) :
    srcOffset A.length (strides (A ++ B)) x = lin A x * numel B := by
  unfold srcOffset
  rw [offset_sum, ← offset_lin B A x h]
  congr 1
  refine List.map_congr_left fun i hi => ?_
  rw [strides_getD]
  have := List.mem_range.1 hi
  simp; omega

theorem destOffset_eq {A B : List ℤ} {x : Idx} {P perm : List ℕ} (hP : P.length = A.length)
    (hperm : ∀ k < A.length, perm.getD k 0 = P.getD k 0) :
    destOffset A.length perm (strides (A ++ B)) x = lin A (permuted P x) * numel B := by
  unfold destOffset
  rw [offset_sum, ← offset_lin B A (permuted P x) (by simp [permuted, hP])]
  congr 1
  refine List.map_congr_left fun i hi => ?_
  have := List.mem_range.1 hi
  rw [strides_getD _ (by simp; omega), hperm i this, permuted_getD (by omega)]

/-- Copies of rows of `E` elements to distinct rows. -/
theorem memcpy_rows {α : Type*} (src : Buf R) (E Q S : ℤ) (q s : α → ℤ) (hE : 0 ≤ E) (hsrc : src.size = S * E) :
    ∀ (L : List α) (b : Buf R), b.size = Q * E → (L.map q).Nodup →
      (∀ a ∈ L, 0 ≤ q a ∧ q a < Q ∧ 0 ≤ s a ∧ s a < S) →
      ∃ b', L.foldlM (fun b a => Buf.memcpy b src E (q a * E) (s a * E)) b = some b' ∧ b'.size = Q * E ∧
        (∀ a ∈ L, ∀ y, 0 ≤ y → y < E → b'.data (q a * E + y) = src.data (s a * E + y)) ∧
        ∀ r y, (∀ a ∈ L, q a ≠ r) → 0 ≤ y → y < E → b'.data (r * E + y) = b.data (r * E + y)
  | [], b, hb, _, _ => ⟨b, rfl, hb, fun a h => by simp at h, fun _ _ _ _ _ => rfl⟩
  | a :: L, b, hb, hnd, h => by
    obtain ⟨h1, h2, h3, h4⟩ := h a (by simp)
    rw [List.map_cons, List.nodup_cons] at hnd
    have e : Buf.memcpy b src E (q a * E) (s a * E) = some ⟨b.size, fun y =>
        if q a * E ≤ y ∧ y < q a * E + E then src.data (s a * E + (y - q a * E)) else b.data y⟩ := by
      unfold Buf.memcpy
      rw [if_pos]
      rw [hb, hsrc]
      refine ⟨by positivity, ?_, by positivity, ?_⟩
      · have : (q a + 1) * E ≤ Q * E := mul_le_mul_of_nonneg_right (by omega) hE
        linarith
      · have : (s a + 1) * E ≤ S * E := mul_le_mul_of_nonneg_right (by omega) hE
        linarith
    obtain ⟨b', e', hs, hin, hout⟩ := memcpy_rows src E Q S q s hE hsrc L ⟨b.size, fun y =>
        if q a * E ≤ y ∧ y < q a * E + E then src.data (s a * E + (y - q a * E)) else b.data y⟩ hb hnd.2
        fun c hc => h c (by simp [hc])
    refine ⟨b', ?_, hs, ?_, ?_⟩
    · rw [List.foldlM_cons, e]; exact e'
    · intro c hc y hy0 hy
      rcases List.mem_cons.1 hc with rfl | hc
      · rw [hout (q c) y (fun a' ha' he => hnd.1 (List.mem_map.2 ⟨a', ha', he⟩)) hy0 hy]
        simp only
        rw [if_pos ⟨by omega, by omega⟩]
        congr 1; ring
      · exact hin c hc y hy0 hy
    · intro r y hr hy0 hy
      rw [hout r y (fun a' ha' => hr a' (by simp [ha'])) hy0 hy]
      simp only
      rw [if_neg]
      rintro ⟨h5, h6⟩
      have hne := hr a (by simp)
      rcases lt_or_gt_of_ne hne with h7 | h7
      · have : (q a + 1) * E ≤ r * E := mul_le_mul_of_nonneg_right (by omega) hE
        linarith
      · have : (r + 1) * E ≤ q a * E := mul_le_mul_of_nonneg_right (by omega) hE
        linarith

theorem unchangedInner_spec (perm : List ℕ) : ∀ n, unchangedInner perm n ≤ n ∧
    ∀ j, n - unchangedInner perm n ≤ j → j < n → perm.getD j 0 = j
  | 0 => ⟨le_refl _, fun j _ h => by omega⟩
  | n + 1 => by
    obtain ⟨h1, h2⟩ := unchangedInner_spec perm n
    rw [unchangedInner]
    split
    · rename_i h
      refine ⟨by omega, fun j hj hj' => ?_⟩
      rcases Nat.lt_succ_iff_lt_or_eq.1 hj' with h3 | rfl
      · exact h2 j (by omega) h3
      · exact h
    · exact ⟨by omega, fun j hj hj' => by omega⟩

theorem permuted_append {P : List ℕ} {m k : ℕ} (hP : ∀ p ∈ P, p < m) {u v : Idx} (hu : u.length = m)
    (hv : v.length = k) :
    permuted (P ++ (List.range k).map fun j => m + j) (u ++ v) = permuted P u ++ v := by
  unfold permuted
  rw [List.map_append, List.map_map]
  congr 1
  · exact List.map_congr_left fun p hp => getD_left u v (by rw [hu]; exact hP p hp) 0
  · refine Eq.trans (List.map_congr_left fun j _ => ?_) ((congrArg (fun n => (List.range n).map fun j => v.getD j 0) hv.symm).trans (map_getD_range v))
    simp only [Function.comp]
    rw [getD_right u v (by omega), hu]
    congr 1
    omega

theorem blockTranspose_spec {data : Mem R} {da db : List ℤ} {P : List ℕ} (junk : Idx → R)
    (hdata : data.shape = da ++ db) (hP : P.Perm (List.range da.length))
    (hnn : ∀ d ∈ data.shape, 0 ≤ d) :
    ∃ o, blockTranspose data (P ++ (List.range db.length).map fun j => da.length + j) db.length junk = some o ∧
      o.shape = transposeDims data.shape (P ++ (List.range db.length).map fun j => da.length + j) ∧
      ∀ i, InShape i data.shape →
        o.data (permuted (P ++ (List.range db.length).map fun j => da.length + j) i) = data.data i := by
  have hPl := perm_length hP
  have hoD : transposeDims data.shape (P ++ (List.range db.length).map fun j => da.length + j) =
      transposeDims da P ++ db := by
    rw [hdata]
    exact permuted_append (perm_lt hP) rfl rfl
  have houter : data.shape.length - db.length = da.length := by rw [hdata]; simp
  have htake : data.shape.take da.length = da := by rw [hdata, List.take_left]
  have hdrop : data.shape.drop da.length = db := by rw [hdata, List.drop_left]
  have htl : (transposeDims da P).length = da.length := by simp [transposeDims, hPl]
  have hE : 0 ≤ numel db := numel_nonneg fun d hd => hnn d (by rw [hdata]; simp [hd])
  have hget : ∀ k < (transposeDims da P).length,
      (P ++ (List.range db.length).map fun j => da.length + j).getD k 0 = P.getD k 0 := by
    intro k hk
    rw [htl] at hk
    rw [List.getD_eq_getElem?_getD, List.getD_eq_getElem?_getD, List.getElem?_append_left (by omega)]
  obtain ⟨b, e, hs, hin, _⟩ := memcpy_rows data.flat (numel db) (numel (transposeDims da P)) (numel da)
    (fun ind => lin (transposeDims da P) (permuted P ind)) (fun ind => lin da ind) hE
    (by simp [Mem.flat, hdata, numel_append]) (idxs da) (Mem.flat ⟨transposeDims da P ++ db, junk⟩ : Buf R)
    (by simp [Mem.flat, numel_append])
    (by
      refine List.Nodup.map_on ?_ (nodup_idxs da)
      intro x hx y hy hxy
      have hx' := mem_idxs.1 hx
      have hy' := mem_idxs.1 hy
      have h1 := permuted_inShape (perm_lt hP) hx'
      have h2 := permuted_inShape (perm_lt hP) hy'
      refine permuted_inj hP hx'.length hy'.length ?_
      rw [← unlin_lin h1, ← unlin_lin h2]
      exact congrArg _ hxy)
    (by
      intro a ha
      have ha' := mem_idxs.1 ha
      have h1 := lin_bounds (permuted_inShape (perm_lt hP) ha')
      have h2 := lin_bounds ha'
      exact ⟨h1.1, h1.2, h2.1, h2.2⟩)
  have hfold : ∀ (L : List Idx), (∀ a ∈ L, InShape a da) → ∀ b : Buf R,
      L.foldlM (fun b ind => Buf.memcpy b data.flat (numel db)
        (destOffset da.length (P ++ (List.range db.length).map fun j => da.length + j)
          (strides (transposeDims da P ++ db)) ind)
        (srcOffset da.length (strides (da ++ db)) ind)) b =
      L.foldlM (fun b a => Buf.memcpy b data.flat (numel db)
        (lin (transposeDims da P) (permuted P a) * numel db) (lin da a * numel db)) b := by
    intro L
    induction L with
    | nil => intro _ b; rfl
    | cons a L ih =>
      intro hL b
      have e1 : destOffset da.length (P ++ (List.range db.length).map fun j => da.length + j)
          (strides (transposeDims da P ++ db)) a = lin (transposeDims da P) (permuted P a) * numel db := by
        have := destOffset_eq (A := transposeDims da P) (B := db) (x := a) (P := P) (by rw [htl, hPl]) hget
        rw [htl] at this
        exact this
      rw [List.foldlM_cons, List.foldlM_cons, e1, srcOffset_eq (hL a (by simp)).length]
      congr 1
      funext b'
      exact ih (fun c hc => hL c (by simp [hc])) b'
  refine ⟨ofFlat (transposeDims da P ++ db) b, ?_, ?_, ?_⟩
  · unfold blockTranspose iterate
    simp only
    rw [houter, htake, hdrop, hoD, hdata, hfold _ (fun a ha => mem_idxs.1 ha), e]
    rfl
  · rw [hoD]; rfl
  · intro i hi
    rw [hdata] at hi
    obtain ⟨u, v, rfl, hu, hv⟩ := inShape_split' hi
    rw [permuted_append (perm_lt hP) hu.length hv.length]
    unfold ofFlat
    simp only
    have hb := lin_bounds hv
    rw [lin_append _ _ _ _ (by rw [htl]; simp [permuted, hPl]), hin u (mem_idxs.2 hu) _ hb.1 hb.2,
      ← lin_append _ _ _ _ hu.length]
    unfold Mem.flat
    simp only
    rw [hdata, unlin_lin hi]

theorem transpose_spec {data : Mem R} {perm : List ℕ} {isOne : ℕ → Bool} (junk : Idx → R)
    (hp : perm.Perm (List.range data.shape.length))
    (hone : ∀ a < data.shape.length, isOne a = true → data.shape.getD a 0 = 1)
    (hnn : ∀ d ∈ data.shape, 0 ≤ d) :
    ∃ o, transpose data isOne perm junk = some o ∧ o.shape = transposeDims data.shape perm ∧
      ∀ i, InShape i data.shape → o.data (permuted perm i) = data.data i := by
  unfold transpose
  by_cases hv : canBeViewOp data.shape.length isOne perm = true
  · rw [if_pos hv]
    exact ⟨_, rfl, rfl, fun i hi => view_spec hp hone hv hi⟩
  rw [if_neg hv]
  simp only
  by_cases hk : unchangedInner perm data.shape.length > 0
  · rw [if_pos hk]
    obtain ⟨h1, h2⟩ := unchangedInner_spec perm data.shape.length
    generalize hkn : unchangedInner perm data.shape.length = k at h1 h2 hk
    obtain ⟨m, hm⟩ : ∃ m, data.shape.length = m + k := ⟨data.shape.length - k, by omega⟩
    have hsplit : data.shape = data.shape.take m ++ data.shape.drop m := (List.take_append_drop _ _).symm
    have hl1 : (data.shape.take m).length = m := by rw [List.length_take]; omega
    have hl2 : (data.shape.drop m).length = k := by rw [List.length_drop]; omega
    have hpl := perm_length hp
    have hS : perm.drop m = (List.range k).map fun j => m + j := by
      refine List.ext_getElem (by simp [hpl, hm]) fun j hj1 hj2 => ?_
      simp only [List.length_map, List.length_range] at hj2
      have := h2 (m + j) (by omega) (by omega)
      rw [List.getD_eq_getElem?_getD, List.getElem?_eq_getElem (by omega), Option.getD_some] at this
      simpa using this
    have hperm : perm = perm.take m ++ (List.range k).map fun j => m + j := by
      rw [← hS, List.take_append_drop]
    have hP : (perm.take m).Perm (List.range m) := by
      have h3 := hp
      rw [hm, List.range_add, hperm] at h3
      exact (List.perm_append_right_iff _).1 h3
    have := blockTranspose_spec (P := perm.take m) junk hsplit (by rw [hl1]; exact hP) hnn
    rw [hl1, hl2, ← hperm] at this
    exact this
  · rw [if_neg hk]
    exact scalarTranspose_spec junk hp

end Verif.Lower
