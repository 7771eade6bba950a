import Verif.Elems.Spec

/-! # Lemmas about strided constants -/

namespace Verif.Elems

variable {W : Type}

theorem getD_of_lt {α : Type} {l : List α} {i : Nat} (d : α) (h : i < l.length) :
    l.getD i d = l[i] := by
  rw [List.getD_eq_getElem?_getD, List.getElem?_eq_getElem h]; rfl

theorem pos_of_mem_prod {l : List Nat} (h : 0 < l.prod) {d : Nat} (hd : d ∈ l) : 0 < d := by
  induction l with
  | nil => simp at hd
  | cons a l ih =>
    rw [List.prod_cons] at h
    rcases List.mem_cons.1 hd with rfl | hd
    · exact Nat.pos_of_mul_pos_right h
    · exact ih (Nat.pos_of_mul_pos_left h) hd

/-! ## Strided iteration -/

theorem pos_map_nat (idx strides : List Nat) :
    pos idx (strides.map Int.ofNat) = (posN idx strides : Int) := by
  induction idx generalizing strides with
  | nil => simp [pos, posN]
  | cons i is ih =>
    cases strides with
    | nil => simp [pos, posN]
    | cons s ss => simp only [List.map_cons, pos, posN, ih]; push_cast; simp

theorem unrank_zero (shape : List Nat) : unrank shape 0 = List.replicate shape.length 0 := by
  induction shape with
  | nil => rfl
  | cons d ds ih => simp [unrank, ih, List.replicate_succ]

theorem pos_zeros (n : Nat) (strides : List Int) : pos (List.replicate n 0) strides = 0 := by
  induction n generalizing strides with
  | zero => simp [pos]
  | succ n ih => cases strides <;> simp [List.replicate_succ, pos, ih]

theorem posN_zeros (n : Nat) (strides : List Nat) : posN (List.replicate n 0) strides = 0 := by
  induction n generalizing strides with
  | zero => simp [posN]
  | succ n ih => cases strides <;> simp [List.replicate_succ, posN, ih]

theorem bump_spec {ι : Type} (shape : List Nat) (strides : List (ι → Int)) (idx : List Nat)
    (off : ι → Int) (hlen : strides.length = shape.length) (h : InBounds shape idx) :
    bump shape strides idx off =
      (decide (rowMajor shape idx + 1 = shape.prod),
        unrank shape ((rowMajor shape idx + 1) % shape.prod),
        fun k => off k + pos (unrank shape ((rowMajor shape idx + 1) % shape.prod)) (strides.map (· k))
          - pos idx (strides.map (· k))) := by
  induction shape generalizing strides idx with
  | nil =>
    obtain rfl := inBounds_nil_left.1 h
    obtain rfl := List.length_eq_zero_iff.1 hlen
    simp [bump, rowMajor, unrank, pos]
  | cons d ds ih =>
    cases idx with
    | nil => simp at h
    | cons i is =>
      cases strides with
      | nil => simp at hlen
      | cons s ss =>
        obtain ⟨hi, his⟩ := inBounds_cons.1 h
        have hm := rowMajor_lt his
        have hP : 0 < ds.prod := by omega
        have ihe := ih ss is (by simpa using hlen) his
        have hr : rowMajor (d :: ds) (i :: is) = i * ds.prod + rowMajor ds is := rfl
        rw [hr, List.prod_cons]
        simp only [bump, ihe]
        set m := rowMajor ds is with hm'
        set P := ds.prod with hP'
        have hdP : (i + 1) * P ≤ d * P := Nat.mul_le_mul_right _ hi
        have hexp : (i + 1) * P = i * P + P := by ring
        by_cases hc : m + 1 = P
        · have hmod : (m + 1) % P = 0 := by rw [hc, Nat.mod_self]
          have hn1 : i * P + m + 1 = (i + 1) * P := by omega
          simp only [hc, decide_true, Nat.mod_self]
          by_cases hd : i + 1 < d
          · have hlt : (i + 1) * P < d * P := Nat.mul_lt_mul_of_pos_right hd hP
            rw [if_pos hd, hn1, Nat.mod_eq_of_lt hlt]
            have hne : ¬ ((i + 1) * P = d * P) := by omega
            simp only [hne, decide_false, unrank]
            rw [← hP', Nat.mul_div_cancel _ hP, Nat.mul_mod_left]
            refine Prod.ext rfl (Prod.ext rfl ?_)
            funext k
            simp only [List.map_cons, pos]
            push_cast; ring
          · have hde : i + 1 = d := by omega
            rw [if_neg hd, hn1, hde, Nat.mod_self]
            simp only [decide_true, unrank, Nat.zero_div, Nat.zero_mod]
            refine Prod.ext rfl (Prod.ext rfl ?_)
            funext k
            simp only [List.map_cons, pos]
            have : (d : Int) = i + 1 := by omega
            rw [this]; push_cast; ring
        · have hlt : i * P + m + 1 < d * P := by omega
          have hne : ¬ (i * P + m + 1 = d * P) := by omega
          simp only [hc, hne, decide_false, Nat.mod_eq_of_lt hlt]
          have e : i * P + m + 1 = (m + 1) + P * i := by rw [Nat.mul_comm P i]; omega
          simp only [unrank]
          rw [← hP', e, Nat.add_mul_div_left _ _ hP, Nat.add_mul_mod_self_left,
            Nat.div_eq_of_lt (by omega : m + 1 < P), Nat.zero_add]
          refine Prod.ext rfl (Prod.ext rfl ?_)
          funext k
          simp only [List.map_cons, pos]
          ring

theorem visit_spec {ι : Type} (shape : List Nat) (strides : List (ι → Int))
    (hlen : strides.length = shape.length) (n a : Nat) (h : a + n = shape.prod) :
    visit shape strides n ⟨a, unrank shape a, fun k => pos (unrank shape a) (strides.map (· k))⟩ =
      (List.range' a n).map fun m =>
        ⟨m, unrank shape m, fun k => pos (unrank shape m) (strides.map (· k))⟩ := by
  induction n generalizing a with
  | zero => rfl
  | succ n ih =>
    rw [visit, List.range'_succ, List.map_cons]
    congr 1
    cases n with
    | zero => rfl
    | succ n =>
      rw [← ih (a + 1) (by omega)]
      congr 1
      have hb := unrank_inBounds (shape := shape) (n := a) (by omega)
      have hr := rowMajor_unrank (shape := shape) (n := a) (by omega)
      have hs := bump_spec shape strides (unrank shape a)
        (fun k => pos (unrank shape a) (strides.map (· k))) hlen hb
      rw [hr, Nat.mod_eq_of_lt (by omega : a + 1 < shape.prod)] at hs
      unfold IdxOffs.next
      simp only [hs]
      congr 1
      funext k
      ring

theorem stridesRange_spec {ι : Type} (shape : List Nat) (strides : List (ι → Int))
    (hlen : strides.length = shape.length) :
    stridesRange shape strides = (allIndices shape).map fun idx =>
      ⟨rowMajor shape idx, idx, fun k => pos idx (strides.map (· k))⟩ := by
  unfold stridesRange
  have hb : (IdxOffs.begin shape : IdxOffs ι) =
      ⟨0, unrank shape 0, fun k => pos (unrank shape 0) (strides.map (· k))⟩ := by
    unfold IdxOffs.begin
    rw [unrank_zero]
    congr 1
    funext k
    rw [pos_zeros]
  rw [hb, visit_spec shape strides hlen _ 0 (by omega), allIndices_eq_map_unrank, List.map_map,
    List.range_eq_range']
  apply List.map_congr_left
  intro m hm
  have hlt : m < shape.prod := by simpa using hm
  simp only [Function.comp_apply, rowMajor_unrank hlt]

theorem mapM_some {α β : Type} {f : α → Option β} {g : α → β} {l : List α}
    (h : ∀ x ∈ l, f x = some (g x)) : l.mapM f = some (l.map g) := by
  induction l with
  | nil => simp
  | cons a l ih =>
    rw [List.mapM_cons, h a (by simp), ih fun x hx => h x (by simp [hx])]
    rfl

theorem mapM_map {α β γ : Type} (f : α → β) (g : β → Option γ) (l : List α) :
    (l.map f).mapM g = l.mapM (g ∘ f) := by
  induction l with
  | nil => simp
  | cons a l ih => simp [List.mapM_cons, ih]

theorem getElem?_map_allIndices {α : Type} (g : List Nat → α) {shape idx : List Nat}
    (h : InBounds shape idx) : ((allIndices shape).map g)[rowMajor shape idx]? = some (g idx) := by
  have hlt : rowMajor shape idx < (allIndices shape).length := by
    rw [length_allIndices]; exact rowMajor_lt h
  rw [List.getElem?_map, List.getElem?_eq_getElem hlt, getElem_allIndices hlt, unrank_rowMajor h]
  rfl

theorem getZ_nat (buf : List W) (n : Nat) : getZ buf (n : Int) = buf[n]? := by
  unfold getZ
  rw [if_neg (by omega)]
  simp

theorem pack1_map (a : List Nat) : (pack1 a).map (· ()) = a.map Int.ofNat := by
  simp [pack1, Function.comp_def]

theorem pack2_length {a b : List Nat} {n : Nat} (ha : a.length = n) (hb : b.length = n) :
    (pack2 a b).length = n := by
  simp [pack2, ha, hb]

theorem pack2_map_false {a b : List Nat} (h : a.length = b.length) :
    (pack2 a b).map (· false) = a.map Int.ofNat := by
  induction a generalizing b with
  | nil => simp [pack2]
  | cons x xs ih =>
    cases b with
    | nil => simp at h
    | cons y ys =>
      have := ih (b := ys) (by simpa using h)
      simp only [pack2] at this
      simp [pack2, this]

theorem pack2_map_true {a b : List Nat} (h : a.length = b.length) :
    (pack2 a b).map (· true) = b.map Int.ofNat := by
  induction a generalizing b with
  | nil =>
    cases b with
    | nil => rfl
    | cons y ys => simp at h
  | cons x xs ih =>
    cases b with
    | nil => simp at h
    | cons y ys =>
      have := ih (b := ys) (by simpa using h)
      simp only [pack2] at this
      simp [pack2, this]

/-! ## Default strides -/

theorem length_defaultStrides (shape : List Nat) : (defaultStrides shape).length = shape.length := by
  induction shape with
  | nil => rfl
  | cons d ds ih => simp [defaultStrides, ih]

theorem contiguous_iff {shape strides : List Nat} (h : strides.length = shape.length) :
    contiguous shape strides = true ↔ strides = defaultStrides shape := by
  induction shape generalizing strides with
  | nil =>
    have := List.length_eq_zero_iff.1 h
    simp [contiguous, this, defaultStrides]
  | cons d ds ih =>
    cases strides with
    | nil => simp at h
    | cons s ss =>
      simp only [contiguous, defaultStrides, Bool.and_eq_true, decide_eq_true_eq,
        ih (by simpa using h), List.cons.injEq]
      tauto

theorem posN_default {shape idx : List Nat} (h : InBounds shape idx) :
    posN idx (defaultStrides shape) = rowMajor shape idx := by
  induction shape generalizing idx with
  | nil => simp [inBounds_nil_left.1 h, posN, rowMajor]
  | cons d ds ih =>
    cases idx with
    | nil => simp at h
    | cons i is =>
      obtain ⟨hi, his⟩ := inBounds_cons.1 h
      simp only [defaultStrides, posN, rowMajor, ih his]
      split
      · have : i = 0 := by omega
        simp [this]
      · rfl

theorem nzProd_default (shape : List Nat) : nzProd shape (defaultStrides shape) = shape.prod := by
  induction shape with
  | nil => rfl
  | cons d ds ih =>
    simp only [defaultStrides, nzProd, ih, List.prod_cons]
    by_cases h1 : d = 1
    · simp [h1]
    · by_cases h0 : ds.prod = 0
      · simp [h0]
      · simp [h0, h1]

theorem defaultStrides_one (shape : List Nat) (k : Nat) (h : shape[k]? = some 1) :
    (defaultStrides shape)[k]? = some 0 := by
  induction shape generalizing k with
  | nil => simp at h
  | cons d ds ih =>
    cases k with
    | zero => simp at h; simp [defaultStrides, h]
    | succ k => simp at h; simpa [defaultStrides] using ih k h

theorem wf_fromWideNums (shape : List Nat) (data : List W) (h : data.length = shape.prod) :
    WF (fromWideNums shape data) where
  len := length_defaultStrides shape
  one := defaultStrides_one shape
  bnd := fun idx hb => by
    show posN idx (defaultStrides shape) < data.length
    rw [posN_default (show InBounds shape idx from hb), h]; exact rowMajor_lt hb
  size := by
    show nzProd shape (defaultStrides shape) = data.length
    rw [nzProd_default, h]
  onto := fun _ k hk => by
    have hk' : k < shape.prod := by rw [← h]; exact hk
    exact ⟨unrank shape k, unrank_inBounds hk', by
      show posN _ (defaultStrides shape) = k
      rw [posN_default (shape := shape) (unrank_inBounds hk'), rowMajor_unrank hk']⟩

theorem value_fromWideNums (shape : List Nat) (data : List W) (idx : List Nat) :
    value (fromWideNums shape data) idx = data[rowMajor shape idx]? := by
  have : (fromWideNums shape data).wideNums = some data := by
    unfold Elms.wideNums Elms.isContiguous
    have hc := (contiguous_iff (length_defaultStrides shape)).2 rfl
    show (if contiguous shape (defaultStrides shape) = true then _ else _) = _
    rw [if_pos hc]
    simp [Elms.bufWide, fromWideNums]
  unfold value
  rw [this]; rfl

/-! ## Reading -/

theorem restride_spec {shape strides : List Nat} {src : List W}
    (hlen : strides.length = shape.length)
    (hb : ∀ idx, InBounds shape idx → posN idx strides < src.length) (g : List Nat → W)
    (hg : ∀ idx, InBounds shape idx → src[posN idx strides]? = some (g idx)) :
    restride shape strides src = some ((allIndices shape).map g) := by
  unfold restride
  rw [stridesRange_spec _ _ (by simp [pack1, hlen]), mapM_map]
  apply mapM_some
  intro idx hidx
  have hin := mem_allIndices.1 hidx
  simp only [Function.comp_apply, pack1_map, pos_map_nat, getZ_nat]
  exact hg idx hin

/-- The buffer entry of an element, after the transformer. -/
theorem WF.elem {e : Elms W} (h : WF e) {idx : List Nat} (hi : InBounds e.shape idx) :
    ∃ v, e.buf[posN idx e.strides]? = some v :=
  ⟨_, List.getElem?_eq_getElem (h.bnd idx hi)⟩

theorem WF.wideNums_eq {e : Elms W} (h : WF e) :
    ∃ l : List W, e.wideNums = some l ∧ l.length = e.shape.prod ∧
      ∀ idx, InBounds e.shape idx →
        ∃ v, e.buf[posN idx e.strides]? = some v ∧ l[rowMajor e.shape idx]? = some (e.tr v) := by
  cases hbuf : e.buf with
  | cons w0 rest =>
    rw [← hbuf]
    set g : List Nat → W := fun idx => e.tr ((e.buf[posN idx e.strides]?).getD w0) with hg
    refine ⟨(allIndices e.shape).map g, ?_, by simp [length_allIndices], ?_⟩
    · unfold Elms.wideNums
      split
      · rename_i hc
        have hs := (contiguous_iff h.len).1 hc
        have hlen : e.buf.length = e.shape.prod := by rw [← h.size, hs, nzProd_default]
        congr 1
        apply List.ext_getElem
        · simp [Elms.bufWide, length_allIndices, hlen]
        · intro n h1 h2
          have hn : n < e.shape.prod := by simpa [Elms.bufWide, hlen] using h1
          have hb := unrank_inBounds hn
          have hp : posN (unrank e.shape n) e.strides = n := by
            rw [hs, posN_default hb, rowMajor_unrank hn]
          have hnb : n < e.buf.length := by omega
          simp only [Elms.bufWide, List.getElem_map]
          rw [getElem_allIndices (by rw [length_allIndices]; exact hn), hg]
          simp only [hp, List.getElem?_eq_getElem hnb]
          rfl
      · apply restride_spec h.len
        · intro idx hi
          simpa [Elms.bufWide] using h.bnd idx hi
        · intro idx hi
          obtain ⟨v, hv⟩ := h.elem hi
          simp [Elms.bufWide, hv, hg]
    · intro idx hi
      obtain ⟨v, hv⟩ := h.elem hi
      exact ⟨v, hv, by rw [getElem?_map_allIndices _ hi, hg]; simp [hv]⟩
  | nil =>
    have hno : ∀ idx, ¬ InBounds e.shape idx := fun idx hi => by
      have := h.bnd idx hi
      simp [hbuf] at this
    have hall : allIndices e.shape = [] := by
      rw [List.eq_nil_iff_forall_not_mem]
      intro idx hidx
      exact hno idx (mem_allIndices.1 hidx)
    have hp : e.shape.prod = 0 := by rw [← length_allIndices, hall]; rfl
    refine ⟨[], ?_, by simp [hp], fun idx hi => absurd hi (hno idx)⟩
    unfold Elms.wideNums
    split
    · simp [Elms.bufWide, hbuf]
    · unfold restride
      rw [stridesRange_spec _ _ (by simp [pack1, h.len]), hall]
      rfl

theorem WF.value_eq {e : Elms W} (h : WF e) {idx : List Nat} (hi : InBounds e.shape idx) :
    ∃ v, e.buf[posN idx e.strides]? = some v ∧ value e idx = some (e.tr v) := by
  obtain ⟨l, hl, -, hv⟩ := h.wideNums_eq
  obtain ⟨v, h1, h2⟩ := hv idx hi
  exact ⟨v, h1, by unfold value; rw [hl]; exact h2⟩

theorem WF.value_eq' {e : Elms W} (h : WF e) {idx : List Nat} (hi : InBounds e.shape idx) :
    value e idx = e.bufWide[posN idx e.strides]? := by
  obtain ⟨v, h1, h2⟩ := h.value_eq hi
  rw [h2]; simp [Elms.bufWide, h1]

/-! ## Random access -/

theorem unflatten_eq {shape : List Nat} (n : Nat) (h : 0 < shape.prod) :
    unflatten shape n = (unrank shape (n % shape.prod), n / shape.prod) := by
  induction shape with
  | nil => simp [unflatten, unrank]
  | cons d ds ih =>
    rw [List.prod_cons] at h ⊢
    have hP : 0 < ds.prod := Nat.pos_of_mul_pos_left h
    simp only [unflatten, ih hP, unrank]
    rw [Nat.mod_mul_left_div_self, Nat.mod_mod_of_dvd _ (Nat.dvd_mul_left _ _),
      Nat.div_div_eq_div_mul, Nat.mul_comm ds.prod d]

theorem unflattenIndex_eq {shape : List Nat} {n : Nat} (h : n < shape.prod) :
    unflattenIndex shape n = unrank shape n := by
  cases shape with
  | nil => rfl
  | cons d ds =>
    have hP : 0 < ds.prod := by
      rw [List.prod_cons] at h
      exact Nat.pos_of_mul_pos_left (by omega : 0 < d * ds.prod)
    simp only [unflattenIndex, unflatten_eq n hP, unrank]

theorem allZero_posN {strides : List Nat} (h : allZero strides = true) (idx : List Nat) :
    posN idx strides = 0 := by
  induction strides generalizing idx with
  | nil => cases idx <;> rfl
  | cons s ss ih =>
    simp only [allZero, List.all_cons, Bool.and_eq_true, beq_iff_eq] at h
    cases idx with
    | nil => rfl
    | cons i is => simp [posN, h.1, ih h.2]

theorem WF.atFlat_eq {e : Elms W} (h : WF e) {n : Nat} (hn : n < e.shape.prod) :
    e.atFlat n = value e (unrank e.shape n) := by
  have hb := unrank_inBounds hn
  have hp : e.flatPos n = (posN (unrank e.shape n) e.strides : Int) := by
    unfold Elms.flatPos
    split
    · rename_i hc
      simp only [Bool.or_eq_true, decide_eq_true_eq] at hc
      rcases hc with hc | hc
      · subst hc; simp [unrank_zero, posN_zeros]
      · rw [(contiguous_iff h.len).1 hc, posN_default hb, rowMajor_unrank hn]
    · split
      · rename_i hs
        simp only [Elms.isSplat, Bool.and_eq_true] at hs
        rw [allZero_posN hs.1]; rfl
      · rw [unflattenIndex_eq hn, pos_map_nat]
  unfold Elms.atFlat
  rw [hp, getZ_nat, h.value_eq' hb]
  simp [Elms.bufWide]

theorem WF.splat_value {e : Elms W} (h : WF e) (hs : e.isSplat = true) :
    ∃ v, e.splatValue = some v ∧ (∀ idx, InBounds e.shape idx → value e idx = some v) := by
  simp only [Elms.isSplat, Bool.and_eq_true, decide_eq_true_eq] at hs
  obtain ⟨w, l, hbuf⟩ := List.exists_cons_of_ne_nil hs.2
  refine ⟨e.tr w, ?_, ?_⟩
  · simp [Elms.splatValue, Elms.atFlat, Elms.flatPos, getZ, hbuf]
  · intro idx hi
    rw [h.value_eq' hi, allZero_posN hs.1]
    simp [Elms.bufWide, hbuf]

/-! ## Broadcasting -/

theorem expandStrides_length {strides : List Nat} {n : Nat} (h : strides.length ≤ n) :
    (expandStrides strides n).length = n := by
  simp [expandStrides]; omega

theorem posN_append_zeros (k : Nat) (idx strides : List Nat) :
    posN idx (List.replicate k 0 ++ strides) = posN (idx.drop k) strides := by
  induction k generalizing idx with
  | zero => simp
  | succ k ih =>
    cases idx with
    | nil => cases strides <;> simp [posN, List.replicate_succ]
    | cons i is => simp [List.replicate_succ, posN, ih]

theorem posN_squash (shape idx strides : List Nat) (hlen : strides.length = shape.length)
    (hidx : idx.length = shape.length)
    (hone : ∀ k : Nat, shape[k]? = some 1 → strides[k]? = some 0) :
    posN (List.zipWith (fun d i => if d = 1 then 0 else i) shape idx) strides
      = posN idx strides := by
  induction shape generalizing idx strides with
  | nil => simp [List.length_eq_zero_iff.1 hlen, posN, List.length_eq_zero_iff.1 hidx]
  | cons d ds ih =>
    cases strides with
    | nil => simp at hlen
    | cons s ss =>
      cases idx with
      | nil => simp at hidx
      | cons i is =>
        have := ih is ss (by simpa using hlen) (by simpa using hidx)
          (fun k hk => by simpa using hone (k + 1) (by simpa using hk))
        simp only [List.zipWith_cons_cons, posN, this]
        split
        · rename_i h1
          have := hone 0 (by simp [h1])
          simp at this
          simp [this]
        · rfl

theorem posN_bIdx {s strides idx : List Nat} {n : Nat} (hlen : strides.length = s.length)
    (hn : idx.length = n) (hle : s.length ≤ n)
    (hone : ∀ k : Nat, s[k]? = some 1 → strides[k]? = some 0) :
    posN idx (expandStrides strides n) = posN (bIdx s idx) strides := by
  unfold expandStrides bIdx
  rw [posN_append_zeros, hlen, hn, posN_squash s _ strides hlen (by simp; omega) hone]

theorem nzProd_append_zeros (k : Nat) (shape strides : List Nat) (h : k ≤ shape.length) :
    nzProd shape (List.replicate k 0 ++ strides) = nzProd (shape.drop k) strides := by
  induction k generalizing shape with
  | zero => simp
  | succ k ih =>
    cases shape with
    | nil => simp at h
    | cons d ds => simp [List.replicate_succ, nzProd, ih ds (by simpa using h)]

theorem nzProd_bcast {s S strides : List Nat}
    (hb : List.Forall₂ (fun d D => d = D ∨ d = 1) s S)
    (hone : ∀ k : Nat, s[k]? = some 1 → strides[k]? = some 0) (hlen : strides.length = s.length) :
    nzProd S strides = nzProd s strides := by
  induction hb generalizing strides with
  | nil => rfl
  | @cons d D ds Ds h1 h2 ih =>
    cases strides with
    | nil => simp at hlen
    | cons t ts =>
      have := ih (strides := ts) (fun k hk => by simpa using hone (k + 1) (by simpa using hk))
        (by simpa using hlen)
      simp only [nzProd, this]
      rcases h1 with h1 | h1
      · rw [h1]
      · have := hone 0 (by simp [h1])
        simp at this
        simp [this]

theorem BroadcastTo.inBounds {s S idx : List Nat} (h : BroadcastTo s S) (hi : InBounds S idx) :
    InBounds s (bIdx s idx) := by
  obtain ⟨hle, hf⟩ := h
  have hlen := hi.length
  unfold bIdx
  rw [hlen]
  have hd : InBounds (S.drop (S.length - s.length)) (idx.drop (S.length - s.length)) :=
    List.forall₂_drop _ hi
  clear hi hlen
  generalize hS : S.drop (S.length - s.length) = S' at hf hd
  generalize hI : idx.drop (S.length - s.length) = I' at hd
  clear hS hI hle
  induction hf generalizing I' with
  | nil => simp [InBounds]
  | @cons d D ds Ds h1 h2 ih =>
    cases I' with
    | nil => simp at hd
    | cons i is =>
      obtain ⟨hi, his⟩ := inBounds_cons.1 hd
      rw [List.zipWith_cons_cons, inBounds_cons]
      refine ⟨?_, ih is his⟩
      split
      · omega
      · rcases h1 with h1 | h1
        · omega
        · contradiction

/-- Every element of the operand is shown somewhere, if the broadcast has elements at all. -/
theorem BroadcastTo.onto {s S idx : List Nat} (h : BroadcastTo s S) (hS : 0 < S.prod)
    (hi : InBounds s idx) : ∃ I, InBounds S I ∧ bIdx s I = idx := by
  obtain ⟨hle, hf⟩ := h
  set k := S.length - s.length with hk
  refine ⟨List.replicate k 0 ++ idx, ?_, ?_⟩
  · have hsplit : S = S.take k ++ S.drop k := (List.take_append_drop k S).symm
    rw [hsplit]
    apply List.rel_append
    · have hpos : ∀ d ∈ S.take k, 0 < d := fun d hd => by
        exact pos_of_mem_prod hS (List.mem_of_mem_take hd)
      have hl : (S.take k).length = k := by simp [hk]
      generalize S.take k = T at hpos hl
      rw [← hl]
      clear hl
      induction T with
      | nil => simp
      | cons d T ih =>
        rw [List.length_cons, List.replicate_succ]
        exact List.Forall₂.cons (hpos d (by simp)) (ih fun x hx => hpos x (by simp [hx]))
    · have hpos : ∀ d ∈ S.drop k, 0 < d := fun d hd => by
        exact pos_of_mem_prod hS (List.mem_of_mem_drop hd)
      generalize S.drop k = T at hpos hf
      clear hsplit hk hle hS
      induction hf generalizing idx with
      | nil => simpa using hi
      | @cons d D ds Ds h1 h2 ih =>
        cases idx with
        | nil => simp at hi
        | cons i is =>
          obtain ⟨hi, his⟩ := inBounds_cons.1 hi
          refine List.Forall₂.cons ?_ (ih his fun x hx => hpos x (by simp [hx]))
          have := hpos D (by simp)
          rcases h1 with h1 | h1 <;> omega
  · have hlen := hi.length
    unfold bIdx
    have : (List.replicate k 0 ++ idx).length - s.length = k := by simp; omega
    rw [this, List.drop_left' (by simp)]
    clear this hf hle hk hlen
    clear_value k
    induction s generalizing idx with
    | nil => simp [inBounds_nil_left.1 hi]
    | cons d ds ih =>
      cases idx with
      | nil => simp at hi
      | cons i is =>
        obtain ⟨hi, his⟩ := inBounds_cons.1 hi
        rw [List.zipWith_cons_cons, ih his]
        split
        · have : i = 0 := by omega
          rw [this]
        · rfl

theorem BroadcastTo.prod_pos {s S : List Nat} (h : BroadcastTo s S) (hS : 0 < S.prod) :
    0 < s.prod := by
  have := (h.inBounds (unrank_inBounds hS)).prod_pos
  exact this

theorem BroadcastTo.refl (s : List Nat) : BroadcastTo s s := by
  refine ⟨le_refl _, ?_⟩
  simp only [Nat.sub_self, List.drop_zero]
  induction s with
  | nil => exact List.Forall₂.nil
  | cons d ds ih => exact List.Forall₂.cons (Or.inl rfl) ih

theorem wf_expandAndTransform {e : Elms W} (h : WF e) {S : List Nat} (hb : BroadcastTo e.shape S)
    (f : W → W) : WF (expandAndTransform e S f) where
  len := by
    show (expandStrides e.strides S.length).length = S.length
    exact expandStrides_length (by rw [h.len]; exact hb.1)
  one := by
    intro k hk
    show (expandStrides e.strides S.length)[k]? = some 0
    replace hk : S[k]? = some 1 := hk
    unfold expandStrides
    rw [h.len]
    have hkS : k < S.length := by
      rcases Nat.lt_or_ge k S.length with h1 | h1
      · exact h1
      · rw [List.getElem?_eq_none h1] at hk; simp at hk
    by_cases hc : k < S.length - e.shape.length
    · rw [List.getElem?_append_left (by simpa using hc)]
      simp [hc]
    · rw [List.getElem?_append_right (by simpa using hc)]
      simp only [List.length_replicate]
      apply h.one
      have hle := hb.1
      have hlt : k - (S.length - e.shape.length) < e.shape.length := by omega
      rw [List.getElem?_eq_getElem hlt]
      have := (List.forall₂_iff_get.1 hb.2).2 (k - (S.length - e.shape.length)) hlt
        (by simp; omega)
      simp only [List.get_eq_getElem, List.getElem_drop] at this
      have hk' : S[S.length - e.shape.length + (k - (S.length - e.shape.length))]'(by omega) = 1 := by
        have e1 : S.length - e.shape.length + (k - (S.length - e.shape.length)) = k := by omega
        simp only [e1]
        rw [List.getElem?_eq_getElem hkS] at hk
        simpa using hk
      rw [hk'] at this
      rcases this with h1 | h1 <;> rw [h1]
  bnd := by
    intro idx hi
    show posN idx (expandStrides e.strides S.length) < e.buf.length
    replace hi : InBounds S idx := hi
    rw [posN_bIdx h.len hi.length hb.1 h.one]
    exact h.bnd _ (hb.inBounds hi)
  size := by
    show nzProd S (expandStrides e.strides S.length) = e.buf.length
    unfold expandStrides
    rw [nzProd_append_zeros _ _ _ (by omega), h.len, nzProd_bcast hb.2 h.one h.len, h.size]
  onto := by
    intro hpos k hk
    replace hpos : 0 < S.prod := hpos
    obtain ⟨idx, h1, h2⟩ := h.onto (hb.prod_pos hpos) k hk
    obtain ⟨I, h3, h4⟩ := hb.onto hpos h1
    refine ⟨I, h3, ?_⟩
    show posN I (expandStrides e.strides S.length) = k
    rw [posN_bIdx h.len h3.length hb.1 h.one, h4, h2]

theorem value_expandAndTransform {e : Elms W} (h : WF e) {S : List Nat}
    (hb : BroadcastTo e.shape S) (f : W → W) {idx : List Nat} (hi : InBounds S idx) :
    value (expandAndTransform e S f) idx = (value e (bIdx e.shape idx)).map f := by
  rw [(wf_expandAndTransform h hb f).value_eq' hi, h.value_eq' (hb.inBounds hi)]
  show (e.buf.map (f ∘ e.tr))[posN idx (expandStrides e.strides S.length)]? = _
  rw [posN_bIdx h.len hi.length hb.1 h.one]
  simp [Elms.bufWide]

theorem bIdx_self {s idx : List Nat} (h : InBounds s idx) : bIdx s idx = idx := by
  unfold bIdx
  rw [h.length]
  simp only [Nat.sub_self, List.drop_zero]
  induction s generalizing idx with
  | nil => simp [inBounds_nil_left.1 h]
  | cons d ds ih =>
    cases idx with
    | nil => simp at h
    | cons i is =>
      obtain ⟨hi, his⟩ := inBounds_cons.1 h
      rw [List.zipWith_cons_cons, ih his]
      split
      · have : i = 0 := by omega
        rw [this]
      · rfl

theorem expand_spec {e : Elms W} (h : WF e) {S : List Nat} (hb : BroadcastTo e.shape S) :
    WF (expand e S) ∧ (expand e S).shape = S ∧
      ∀ idx, InBounds S idx → value (expand e S) idx = value e (bIdx e.shape idx) := by
  unfold expand
  split
  · rename_i heq
    subst heq
    exact ⟨h, rfl, fun idx hi => by rw [bIdx_self hi]⟩
  · have hE : ({ e with shape := S, strides := expandStrides e.strides S.length } : Elms W)
        = expandAndTransform e S id := rfl
    rw [hE]
    refine ⟨wf_expandAndTransform h hb id, rfl, fun idx hi => ?_⟩
    rw [value_expandAndTransform h hb id hi]
    simp

theorem expanded_read {e : Elms W} (h : WF e) {S : List Nat} (hb : BroadcastTo e.shape S)
    {idx : List Nat} (hi : InBounds S idx) :
    getZ e.bufWide (pos idx ((expandStrides e.strides S.length).map Int.ofNat))
      = value e (bIdx e.shape idx) := by
  rw [pos_map_nat, getZ_nat, posN_bIdx h.len hi.length hb.1 h.one, h.value_eq' (hb.inBounds hi)]

theorem mapM_total {α β : Type} {f : α → Option β} {l : List α} (h : ∀ x ∈ l, ∃ y, f x = some y) :
    ∃ r, l.mapM f = some r ∧ r.length = l.length ∧
      ∀ (k : Nat) x, l[k]? = some x → ∃ y, f x = some y ∧ r[k]? = some y := by
  induction l with
  | nil => exact ⟨[], by simp, rfl, by simp⟩
  | cons a l ih =>
    obtain ⟨y, hy⟩ := h a (by simp)
    obtain ⟨r, h1, h2, h3⟩ := ih fun x hx => h x (by simp [hx])
    refine ⟨y :: r, by rw [List.mapM_cons, hy, h1]; rfl, by simp [h2], ?_⟩
    intro k x hk
    cases k with
    | zero => simp at hk; subst hk; exact ⟨y, hy, by simp⟩
    | succ k => simpa using h3 k x (by simpa using hk)

/-- Elementwise construction over a shape. -/
theorem build_spec {S : List Nat} {f : List Nat → Option W}
    (h : ∀ idx, InBounds S idx → ∃ y, f idx = some y) :
    ∃ r, (allIndices S).mapM f = some r ∧ WF (fromWideNums S r) ∧
      ∀ idx, InBounds S idx → value (fromWideNums S r) idx = f idx := by
  obtain ⟨r, h1, h2, h3⟩ := mapM_total (l := allIndices S) (f := f)
    fun x hx => h x (mem_allIndices.1 hx)
  refine ⟨r, h1, wf_fromWideNums S r (by rw [h2, length_allIndices]), fun idx hi => ?_⟩
  rw [value_fromWideNums]
  have hlt : rowMajor S idx < (allIndices S).length := by
    rw [length_allIndices]; exact rowMajor_lt hi
  obtain ⟨y, hy1, hy2⟩ := h3 (rowMajor S idx) idx (by
    rw [List.getElem?_eq_getElem hlt, getElem_allIndices hlt, unrank_rowMajor hi])
  rw [hy1, hy2]

theorem WF.value_some {e : Elms W} (h : WF e) {idx : List Nat} (hi : InBounds e.shape idx) :
    ∃ v, value e idx = some v := by
  obtain ⟨v, -, h2⟩ := h.value_eq hi
  exact ⟨_, h2⟩

theorem combine_spec {l r : Elms W} (hl : WF l) (hr : WF r) {S : List Nat}
    (bl : BroadcastTo l.shape S) (br : BroadcastTo r.shape S) (f : W → W → W) :
    ∃ o, combine l r S f = some o ∧ WF o ∧ o.shape = S ∧ ∀ idx, InBounds S idx →
      ∃ x y, value l (bIdx l.shape idx) = some x ∧ value r (bIdx r.shape idx) = some y ∧
        value o idx = some (f x y) := by
  unfold combine
  split
  · rename_i hs
    obtain ⟨v, hv, hall⟩ := hl.splat_value hs
    refine ⟨expandAndTransform r S (f v), by rw [hv]; rfl, wf_expandAndTransform hr br _, rfl, ?_⟩
    intro idx hi
    obtain ⟨y, hy⟩ := hr.value_some (br.inBounds hi)
    exact ⟨v, y, hall _ (bl.inBounds hi), hy, by rw [value_expandAndTransform hr br _ hi, hy]; rfl⟩
  · split
    · rename_i hs
      obtain ⟨v, hv, hall⟩ := hr.splat_value hs
      refine ⟨expandAndTransform l S (fun n => f n v), by rw [hv]; rfl,
        wf_expandAndTransform hl bl _, rfl, ?_⟩
      intro idx hi
      obtain ⟨x, hx⟩ := hl.value_some (bl.inBounds hi)
      exact ⟨x, v, hx, hall _ (br.inBounds hi), by rw [value_expandAndTransform hl bl _ hi, hx]; rfl⟩
    · have hlen1 : (expandStrides l.strides S.length).length = S.length :=
        expandStrides_length (by rw [hl.len]; exact bl.1)
      have hlen2 : (expandStrides r.strides S.length).length = S.length :=
        expandStrides_length (by rw [hr.len]; exact br.1)
      simp only [Elms.expanded]
      rw [stridesRange_spec _ _ (pack2_length hlen1 hlen2), mapM_map]
      have key : ∀ idx, InBounds S idx → ∃ x y, value l (bIdx l.shape idx) = some x ∧
          value r (bIdx r.shape idx) = some y ∧
          ((getZ l.bufWide (pos idx ((expandStrides l.strides S.length).map Int.ofNat))).bind
            fun x => (getZ r.bufWide (pos idx ((expandStrides r.strides S.length).map Int.ofNat))).map
              fun y => f x y) = some (f x y) := by
        intro idx hi
        obtain ⟨x, hx⟩ := hl.value_some (bl.inBounds hi)
        obtain ⟨y, hy⟩ := hr.value_some (br.inBounds hi)
        exact ⟨x, y, hx, hy, by rw [expanded_read hl bl hi, expanded_read hr br hi, hx, hy]; rfl⟩
      obtain ⟨o, h1, h2, h3⟩ := build_spec (S := S) (f := fun idx =>
        ((getZ l.bufWide (pos idx ((expandStrides l.strides S.length).map Int.ofNat))).bind
            fun x => (getZ r.bufWide (pos idx ((expandStrides r.strides S.length).map Int.ofNat))).map
              fun y => f x y)) (fun idx hi => by
          obtain ⟨x, y, -, -, h⟩ := key idx hi
          exact ⟨_, h⟩)
      refine ⟨fromWideNums S o, ?_, h2, rfl, ?_⟩
      · rw [Option.map_eq_some_iff]
        refine ⟨o, ?_, rfl⟩
        rw [← h1]
        congr 1
        funext idx
        simp only [Function.comp_apply, pack2_map_false (hlen1.trans hlen2.symm),
          pack2_map_true (hlen1.trans hlen2.symm)]
      · intro idx hi
        obtain ⟨x, y, hx, hy, h⟩ := key idx hi
        exact ⟨x, y, hx, hy, by rw [h3 idx hi]; exact h⟩

theorem select_spec (truth : W → Bool) {c l r : Elms W} (hc : WF c) (hl : WF l) (hr : WF r)
    {S : List Nat} (bc : BroadcastTo c.shape S) (bl : BroadcastTo l.shape S)
    (br : BroadcastTo r.shape S) :
    ∃ o, select truth c l r S = some o ∧ WF o ∧ o.shape = S ∧ ∀ idx, InBounds S idx →
      ∃ b, value c (bIdx c.shape idx) = some b ∧
        value o idx = if truth b then value l (bIdx l.shape idx)
          else value r (bIdx r.shape idx) := by
  unfold select
  split
  · rename_i hs
    obtain ⟨v, hv, hall⟩ := hc.splat_value hs
    rw [hv]
    by_cases ht : truth v = true
    · obtain ⟨h1, h2, h3⟩ := expand_spec hl bl
      refine ⟨expand l S, by simp [ht], h1, h2, fun idx hi => ?_⟩
      exact ⟨v, hall _ (bc.inBounds hi), by simp [ht, h3 idx hi]⟩
    · obtain ⟨h1, h2, h3⟩ := expand_spec hr br
      refine ⟨expand r S, by simp [ht], h1, h2, fun idx hi => ?_⟩
      exact ⟨v, hall _ (bc.inBounds hi), by simp [ht, h3 idx hi]⟩
  · split
    · rename_i hs
      rw [Bool.and_eq_true] at hs
      obtain ⟨v, hv, hallv⟩ := hl.splat_value hs.1
      obtain ⟨w, hw, hallw⟩ := hr.splat_value hs.2
      refine ⟨expandAndTransform c S (fun n => if truth n then v else w), by rw [hv, hw]; rfl,
        wf_expandAndTransform hc bc _, rfl, fun idx hi => ?_⟩
      obtain ⟨b, hb⟩ := hc.value_some (bc.inBounds hi)
      refine ⟨b, hb, ?_⟩
      rw [value_expandAndTransform hc bc _ hi, hb, hallv _ (bl.inBounds hi),
        hallw _ (br.inBounds hi)]
      simp only [Option.map_some]
      split <;> rfl
    · have hlen0 : (expandStrides c.strides S.length).length = S.length :=
        expandStrides_length (by rw [hc.len]; exact bc.1)
      have hlen1 : (expandStrides l.strides S.length).length = S.length :=
        expandStrides_length (by rw [hl.len]; exact bl.1)
      have hlen2 : (expandStrides r.strides S.length).length = S.length :=
        expandStrides_length (by rw [hr.len]; exact br.1)
      simp only [Elms.expanded]
      obtain ⟨dst, hd1, hd2, hd3⟩ := build_spec (S := S)
        (f := fun idx => getZ c.bufWide (pos idx ((expandStrides c.strides S.length).map Int.ofNat)))
        (fun idx hi => by rw [expanded_read hc bc hi]; exact hc.value_some (bc.inBounds hi))
      have hdst : restride S (expandStrides c.strides S.length) c.bufWide = some dst := by
        unfold restride
        rw [stridesRange_spec _ _ (by simp [pack1, hlen0]), mapM_map, ← hd1]
        congr 1
        funext idx
        simp only [Function.comp_apply, pack1_map]
      rw [hdst, Option.bind_some, stridesRange_spec _ _ (pack2_length hlen1 hlen2), mapM_map]
      have hdv : ∀ idx, InBounds S idx → dst[rowMajor S idx]? = value c (bIdx c.shape idx) := by
        intro idx hi
        rw [← value_fromWideNums, hd3 idx hi, expanded_read hc bc hi]
      set F : List Nat → Option W := fun idx => (dst[rowMajor S idx]?).bind fun res =>
        if truth res then
          getZ l.bufWide (pos idx ((expandStrides l.strides S.length).map Int.ofNat))
        else getZ r.bufWide (pos idx ((expandStrides r.strides S.length).map Int.ofNat)) with hF
      have key : ∀ idx, InBounds S idx → ∃ b, value c (bIdx c.shape idx) = some b ∧
          F idx = if truth b then value l (bIdx l.shape idx) else value r (bIdx r.shape idx) := by
        intro idx hi
        obtain ⟨b, hb⟩ := hc.value_some (bc.inBounds hi)
        refine ⟨b, hb, ?_⟩
        rw [hF]
        simp only [hdv idx hi, hb, Option.bind_some, expanded_read hl bl hi,
          expanded_read hr br hi]
      obtain ⟨o, h1, h2, h3⟩ := build_spec (S := S) (f := F) (fun idx hi => by
        obtain ⟨b, -, h⟩ := key idx hi
        rw [h]
        split
        · exact hl.value_some (bl.inBounds hi)
        · exact hr.value_some (br.inBounds hi))
      refine ⟨fromWideNums S o, ?_, h2, rfl, ?_⟩
      · rw [Option.map_eq_some_iff]
        refine ⟨o, ?_, rfl⟩
        rw [← h1]
        congr 1
        funext idx
        simp only [hF, Function.comp_apply, pack2_map_false (hlen1.trans hlen2.symm),
          pack2_map_true (hlen1.trans hlen2.symm)]
      · intro idx hi
        obtain ⟨b, hb, h⟩ := key idx hi
        exact ⟨b, hb, by rw [h3 idx hi, h]⟩

/-! ## Transposition -/

theorem posN_maps (perm : List Nat) (f g : Nat → Nat) :
    posN (perm.map f) (perm.map g) = (perm.map fun p => f p * g p).sum := by
  induction perm with
  | nil => rfl
  | cons p ps ih => simp [posN, ih]

theorem nzProd_maps (perm : List Nat) (f g : Nat → Nat) :
    nzProd (perm.map f) (perm.map g) = (perm.map fun p => if g p = 0 then 1 else f p).prod := by
  induction perm with
  | nil => rfl
  | cons p ps ih => simp [nzProd, ih]

theorem transposeDims_range (l : List Nat) : transposeDims l (List.range l.length) = l := by
  unfold transposeDims
  apply List.ext_getElem
  · simp
  · intro i h1 h2
    simp [h2]

theorem posN_transpose {perm idx strides : List Nat} (hp : perm.Perm (List.range strides.length))
    (hl : idx.length = strides.length) :
    posN (transposeDims idx perm) (transposeDims strides perm) = posN idx strides := by
  conv_rhs => rw [← transposeDims_range idx, ← transposeDims_range strides, hl]
  unfold transposeDims
  rw [posN_maps, posN_maps]
  exact (hp.map _).sum_nat

theorem nzProd_transpose {perm shape strides : List Nat}
    (hp : perm.Perm (List.range strides.length)) (hl : shape.length = strides.length) :
    nzProd (transposeDims shape perm) (transposeDims strides perm) = nzProd shape strides := by
  conv_rhs => rw [← transposeDims_range shape, ← transposeDims_range strides, hl]
  unfold transposeDims
  rw [nzProd_maps, nzProd_maps]
  exact (hp.map _).prod_eq

theorem prod_transpose {perm shape : List Nat} (hp : perm.Perm (List.range shape.length)) :
    (transposeDims shape perm).prod = shape.prod := by
  conv_rhs => rw [← transposeDims_range shape]
  exact (hp.map _).prod_eq

theorem transpose_inBounds {perm shape idx : List Nat} (hp : perm.Perm (List.range shape.length))
    (h : InBounds shape idx) : InBounds (transposeDims shape perm) (transposeDims idx perm) := by
  have hmem : ∀ p ∈ perm, p < shape.length := fun p hpm => by
    simpa using hp.mem_iff.1 hpm
  unfold transposeDims
  clear hp
  induction perm with
  | nil => simp
  | cons p ps ih =>
    refine List.Forall₂.cons ?_ (ih fun q hq => hmem q (by simp [hq]))
    have hpl := hmem p (by simp)
    have hl := h.length
    show idx.getD p 0 < shape.getD p 0
    rw [getD_of_lt _ hpl, getD_of_lt _ (by omega)]
    exact h.get_lt p hpl

theorem transpose_onto {perm shape j : List Nat} (hp : perm.Perm (List.range shape.length))
    (h : InBounds (transposeDims shape perm) j) :
    ∃ i, InBounds shape i ∧ j = transposeDims i perm := by
  have hlen : j.length = perm.length := by rw [h.length]; simp [transposeDims]
  have hpl : perm.length = shape.length := by rw [hp.length_eq]; simp
  have hnd : perm.Nodup := hp.nodup_iff.2 List.nodup_range
  refine ⟨(List.range shape.length).map fun a => j.getD (perm.idxOf a) 0, ?_, ?_⟩
  · rw [inBounds_iff_get]
    refine ⟨by simp, ?_⟩
    intro k hk
    simp only [List.getElem_map, List.getElem_range]
    have hmem : k ∈ perm := hp.mem_iff.2 (by simpa using hk)
    have hlt := List.idxOf_lt_length_of_mem hmem
    have hb := (inBounds_iff_get.1 h).2 (perm.idxOf k) (by simpa [transposeDims] using hlt)
    rw [getD_of_lt _ (by omega)]
    refine lt_of_lt_of_eq hb ?_
    simp only [transposeDims, List.getElem_map, List.getElem_idxOf]
    rw [getD_of_lt _ hk]
  · apply List.ext_getElem
    · simp [transposeDims, hlen]
    · intro k h1 h2
      have hk : k < perm.length := by omega
      simp only [transposeDims, List.getElem_map]
      have hpk : perm[k] < shape.length := by
        have := hp.mem_iff.1 (List.getElem_mem hk)
        simpa using this
      rw [getD_of_lt _ (by simpa using hpk)]
      simp only [List.getElem_map, List.getElem_range]
      rw [hnd.idxOf_getElem k hk, getD_of_lt _ h1]

theorem transpose_spec {e : Elms W} (h : WF e) {perm : List Nat}
    (hp : perm.Perm (List.range e.shape.length)) :
    WF (transpose e perm) ∧ (transpose e perm).shape = transposeDims e.shape perm ∧
      ∀ idx, InBounds e.shape idx →
        value (transpose e perm) (transposeDims idx perm) = value e idx := by
  have hpl : perm.length = e.shape.length := by rw [hp.length_eq]; simp
  have hps : perm.Perm (List.range e.strides.length) := by rw [h.len]; exact hp
  unfold transpose
  split
  · rename_i heq
    rw [hpl] at heq
    subst heq
    refine ⟨h, (transposeDims_range _).symm, fun idx hi => ?_⟩
    rw [← hi.length, transposeDims_range]
  · set t : Elms W :=
      { e with shape := transposeDims e.shape perm, strides := transposeDims e.strides perm } with ht
    have hwf : WF t := by
      refine ⟨by simp [ht, transposeDims], ?_, ?_, ?_, ?_⟩
      · intro k hk
        simp only [ht, transposeDims, List.getElem?_map, Option.map_eq_some_iff] at hk ⊢
        obtain ⟨p, hp1, hp2⟩ := hk
        refine ⟨p, hp1, ?_⟩
        have hplt : p < e.shape.length := by
          have := hp.mem_iff.1 (List.mem_of_getElem? hp1)
          simpa using this
        rw [getD_of_lt _ hplt] at hp2
        have := h.one p (by rw [List.getElem?_eq_getElem hplt, hp2])
        rw [List.getD_eq_getElem?_getD, this]; rfl
      · intro j hj
        obtain ⟨i, hi, rfl⟩ := transpose_onto hp hj
        show posN _ (transposeDims e.strides perm) < e.buf.length
        rw [posN_transpose hps (by rw [hi.length, h.len])]
        exact h.bnd i hi
      · show nzProd (transposeDims e.shape perm) (transposeDims e.strides perm) = _
        rw [nzProd_transpose hps h.len.symm, h.size]
      · intro hpos k hk
        replace hpos : 0 < (transposeDims e.shape perm).prod := hpos
        rw [prod_transpose hp] at hpos
        obtain ⟨i, hi, hk⟩ := h.onto hpos k hk
        refine ⟨transposeDims i perm, transpose_inBounds hp hi, ?_⟩
        show posN _ (transposeDims e.strides perm) = k
        rw [posN_transpose hps (by rw [hi.length, h.len]), hk]
    refine ⟨hwf, rfl, fun idx hi => ?_⟩
    rw [hwf.value_eq' (transpose_inBounds hp hi), h.value_eq' hi]
    show t.bufWide[posN _ (transposeDims e.strides perm)]? = _
    rw [posN_transpose hps (by rw [hi.length, h.len])]
    rfl

end Verif.Elems
