import Verif.Elems.Built
import Verif.Elems.BlockModel

namespace Verif.Elems

variable {W : Type}

/-! ## Row-major positions of concatenated shapes -/

theorem inBounds_append {s1 s2 i1 i2 : List Nat} (hl : i1.length = s1.length) :
    InBounds (s1 ++ s2) (i1 ++ i2) ↔ InBounds s1 i1 ∧ InBounds s2 i2 := by
  induction s1 generalizing i1 with
  | nil =>
    have := List.length_eq_zero_iff.1 hl
    subst this; simp [InBounds]
  | cons d ds ih =>
    cases i1 with
    | nil => simp at hl
    | cons i is =>
      simp only [List.cons_append, inBounds_cons, ih (by simpa using hl)]
      tauto

theorem rowMajor_append {s1 s2 i1 i2 : List Nat} (hl : i1.length = s1.length) :
    rowMajor (s1 ++ s2) (i1 ++ i2) = rowMajor s1 i1 * s2.prod + rowMajor s2 i2 := by
  induction s1 generalizing i1 with
  | nil =>
    have := List.length_eq_zero_iff.1 hl
    subst this; simp [rowMajor]
  | cons d ds ih =>
    cases i1 with
    | nil => simp at hl
    | cons i is =>
      simp only [List.cons_append, rowMajor, ih (by simpa using hl), List.prod_append]
      ring

/-- Splitting an index of a concatenated shape. -/
theorem InBounds.split {s1 s2 idx : List Nat} (h : InBounds (s1 ++ s2) idx) :
    ∃ i1 i2, idx = i1 ++ i2 ∧ InBounds s1 i1 ∧ InBounds s2 i2 := by
  have hl := h.length
  rw [List.length_append] at hl
  refine ⟨idx.take s1.length, idx.drop s1.length, (List.take_append_drop _ _).symm, ?_⟩
  rw [← inBounds_append (by simp; omega), List.take_append_drop]
  exact h

/-! ## Filling a buffer -/

theorem mapM_id_some {l : List (Option W)} {r : List W} (h : l = r.map some) :
    l.mapM id = some r := by
  subst h
  rw [mapM_map]
  have := mapM_some (l := r) (f := id ∘ some) (g := id) (fun x _ => rfl)
  simpa using this

theorem putAll_length {b b' : List (Option W)} {ws : List (Nat × W)}
    (h : putAll b ws = some b') : b'.length = b.length := by
  induction ws generalizing b with
  | nil => simp [putAll] at h; rw [h]
  | cons w ws ih =>
    unfold putAll at h
    split at h
    · rw [ih h]; simp
    · simp at h

theorem putAll_spec {b : List (Option W)} {ws : List (Nat × W)}
    (hin : ∀ w ∈ ws, w.1 < b.length) :
    ∃ b', putAll b ws = some b' ∧ b'.length = b.length ∧
      (∀ k, k ∉ ws.map (·.1) → b'[k]? = b[k]?) ∧
      ∀ k, k ∈ ws.map (·.1) → ∃ v, (k, v) ∈ ws ∧ b'[k]? = some (some v) := by
  induction ws generalizing b with
  | nil => exact ⟨b, rfl, rfl, by simp, by simp⟩
  | cons w ws ih =>
    obtain ⟨k0, v0⟩ := w
    have hk0 : k0 < b.length := hin (k0, v0) (by simp)
    obtain ⟨b', h1, h2, h3, h4⟩ := ih (b := b.set k0 (some v0)) fun w hw => by
      simpa using hin w (by simp [hw])
    refine ⟨b', by rw [putAll, if_pos hk0]; exact h1, by simpa using h2, ?_, ?_⟩
    · intro k hk
      simp only [List.map_cons, List.mem_cons, not_or] at hk
      rw [h3 k hk.2, List.getElem?_set_ne (Ne.symm hk.1)]
    · intro k hk
      by_cases hmem : k ∈ ws.map (·.1)
      · obtain ⟨v, hv1, hv2⟩ := h4 k hmem
        exact ⟨v, by simp [hv1], hv2⟩
      · simp only [List.map_cons, List.mem_cons] at hk
        rcases hk with rfl | hk
        · refine ⟨v0, by simp, ?_⟩
          rw [h3 _ hmem]; simp [hk0]
        · exact absurd hk hmem

theorem fill_spec {n : Nat} {ws : List (Nat × W)} (hin : ∀ w ∈ ws, w.1 < n)
    (hcov : ∀ k, k < n → ∃ v, (k, v) ∈ ws)
    (hcons : ∀ k v v', (k, v) ∈ ws → (k, v') ∈ ws → v = v') :
    ∃ l, fill n ws = some l ∧ l.length = n ∧ ∀ k v, (k, v) ∈ ws → l[k]? = some v := by
  obtain ⟨b, h1, h2, -, h4⟩ := putAll_spec (b := List.replicate n (none : Option W)) (ws := ws)
    (by simpa using hin)
  have h2' : b.length = n := by simpa using h2
  have hall : ∀ k, k < n → ∃ v, (k, v) ∈ ws ∧ b[k]? = some (some v) := fun k hk => by
    obtain ⟨v, hv⟩ := hcov k hk
    exact h4 k (List.mem_map.2 ⟨(k, v), hv, rfl⟩)
  obtain ⟨r, r1, r2, r3⟩ := mapM_total (l := b) (f := id) (fun x hx => by
    obtain ⟨k, hk, rfl⟩ := List.getElem_of_mem hx
    obtain ⟨v, -, hv⟩ := hall k (by omega)
    rw [List.getElem?_eq_getElem hk] at hv
    exact ⟨v, by simpa using hv⟩)
  refine ⟨r, by unfold fill; rw [h1]; exact r1, by omega, fun k v hv => ?_⟩
  obtain ⟨v', hv1, hv2⟩ := hall k (hin _ hv)
  obtain ⟨y, hy1, hy2⟩ := r3 k _ hv2
  rw [hy2, hcons k v v' hv hv1]
  simpa using hy1.symm

/-! ## Iterating over an input -/

theorem WF.iter_eq {e : Elms W} (h : WF e) :
    ∃ l, e.iter = some l ∧ l.length = e.shape.prod ∧
      ∀ idx, InBounds e.shape idx → l[rowMajor e.shape idx]? = value e idx := by
  unfold Elms.iter restride
  rw [stridesRange_spec _ _ (by simp [pack1, h.len]), mapM_map]
  obtain ⟨r, h1, h2, h3⟩ := mapM_total (l := allIndices e.shape)
    (f := (fun v : IdxOffs Unit => getZ e.bufWide (v.offs ())) ∘ fun idx =>
      (⟨rowMajor e.shape idx, idx, fun k => pos idx ((pack1 e.strides).map (· k))⟩ : IdxOffs Unit))
    (fun idx hx => by
      have hi := mem_allIndices.1 hx
      simp only [Function.comp_apply, pack1_map, pos_map_nat, getZ_nat]
      rw [← h.value_eq' hi]
      exact h.value_some hi)
  refine ⟨r, h1, by rw [h2, length_allIndices], fun idx hi => ?_⟩
  have hlt : rowMajor e.shape idx < (allIndices e.shape).length := by
    rw [length_allIndices]; exact rowMajor_lt hi
  obtain ⟨y, hy1, hy2⟩ := h3 (rowMajor e.shape idx) idx (by
    rw [List.getElem?_eq_getElem hlt, getElem_allIndices hlt, unrank_rowMajor hi])
  rw [hy2, ← hy1]
  simp only [Function.comp_apply, pack1_map, pos_map_nat, getZ_nat]
  rw [h.value_eq' hi]

theorem WF.wideNums_value {e : Elms W} (h : WF e) :
    ∃ l, e.wideNums = some l ∧ l.length = e.shape.prod ∧
      ∀ idx, InBounds e.shape idx → l[rowMajor e.shape idx]? = value e idx := by
  obtain ⟨l, h1, h2, -⟩ := h.wideNums_eq
  exact ⟨l, h1, h2, fun idx _ => by unfold value; rw [h1]; rfl⟩

/-! ## Block offsets -/

theorem blockOffsets_eq (stride n off : Nat) (h : off < stride) (base : Nat) :
    blockOffsets (base * stride + n * stride) stride (base * stride + off) =
      (List.range n).map fun b => base * stride + (off + b * stride) := by
  induction n generalizing base with
  | zero =>
    unfold blockOffsets
    rw [dif_neg (by omega)]; rfl
  | succ n ih =>
    unfold blockOffsets
    have h1 : (n + 1) * stride = n * stride + stride := by ring
    rw [dif_pos ⟨by omega, by omega⟩, List.range_succ_eq_map, List.map_cons, List.map_map]
    have e1 : base * stride + (n + 1) * stride = (base + 1) * stride + n * stride := by ring
    have e2 : base * stride + off + stride = (base + 1) * stride + off := by ring
    rw [e1, e2, ih (base + 1)]
    congr 1
    · ring
    · apply List.map_congr_left
      intro b _
      simp only [Function.comp_apply, Nat.succ_eq_add_one]; ring

theorem blockOffsets_spec {stride n off : Nat} (h : off < stride) :
    blockOffsets (n * stride) stride off = (List.range n).map fun b => off + b * stride := by
  have := blockOffsets_eq stride n off h 0
  simpa using this

theorem blockOffsets_ge {size stride off o : Nat} (h : o ∈ blockOffsets size stride off) :
    o < size := by
  fun_induction blockOffsets size stride off with
  | case1 off hc ih =>
    rcases List.mem_cons.1 h with rfl | h
    · exact hc.1
    · exact ih h
  | case2 => simp at h

theorem blockOffsets_of_ge {size stride off : Nat} (h : size ≤ off) :
    blockOffsets size stride off = [] := by
  unfold blockOffsets
  rw [dif_neg (by omega)]

/-! ## Split -/

theorem length_flatten_blocks {n L : Nat} {f : Nat → List W} (h : ∀ b, b < n → (f b).length = L) :
    (((List.range n).map f).flatten).length = n * L := by
  induction n with
  | zero => simp
  | succ n ih =>
    rw [List.range_succ, List.map_append, List.flatten_append, List.length_append,
      ih fun b hb => h b (by omega)]
    simp [h n (by omega)]; ring

theorem getElem?_flatten_blocks {n L : Nat} {f : Nat → List W}
    (h : ∀ b, b < n → (f b).length = L) {b t : Nat} (hb : b < n) (ht : t < L) :
    (((List.range n).map f).flatten)[b * L + t]? = (f b)[t]? := by
  induction n with
  | zero => omega
  | succ n ih =>
    have hlen := length_flatten_blocks (f := f) (n := n) fun b hb => h b (by omega)
    rw [List.range_succ, List.map_append, List.flatten_append]
    by_cases hbn : b < n
    · rw [List.getElem?_append_left, ih (fun b hb => h b (by omega)) hbn]
      rw [hlen]
      have : (b + 1) * L ≤ n * L := Nat.mul_le_mul_right _ hbn
      have e : (b + 1) * L = b * L + L := by ring
      omega
    · have : b = n := by omega
      subst this
      rw [List.getElem?_append_right (by omega), hlen]
      simp

theorem splitImpl_spec (data : List W) (pre A P off sz : Nat) (hlen : data.length = pre * (A * P))
    (hle : off + sz ≤ A) :
    ∃ d, splitImpl data (off * P) (sz * P) (A * P) = some d ∧ d.length = pre * (sz * P) ∧
      ∀ b t, b < pre → t < sz * P → d[b * (sz * P) + t]? = data[b * (A * P) + (off * P + t)]? := by
  unfold splitImpl
  have hAP : off * P + sz * P ≤ A * P := by
    rw [← Nat.add_mul]; exact Nat.mul_le_mul_right _ hle
  by_cases hlt : off * P < A * P
  · rw [hlen, blockOffsets_spec hlt]
    rw [mapM_map]
    have hb : ∀ b, b < pre → off * P + b * (A * P) + sz * P ≤ pre * (A * P) := fun b hb => by
      have : (b + 1) * (A * P) ≤ pre * (A * P) := Nat.mul_le_mul_right _ hb
      have e : (b + 1) * (A * P) = b * (A * P) + A * P := by ring
      omega
    rw [mapM_some (g := fun b => (data.drop (off * P + b * (A * P))).take (sz * P)) (by
      intro b hbm
      simp only [Function.comp_apply]
      rw [if_pos (hb b (by simpa using hbm))])]
    have hfl : ∀ b, b < pre →
        ((data.drop (off * P + b * (A * P))).take (sz * P)).length = sz * P := fun b hbm => by
      have := hb b hbm
      simp only [List.length_take, List.length_drop, hlen]
      omega
    refine ⟨_, rfl, length_flatten_blocks hfl, fun b t hbm ht => ?_⟩
    rw [getElem?_flatten_blocks hfl hbm ht, List.getElem?_take_of_lt ht, List.getElem?_drop]
    congr 1; ring
  · have hz : sz * P = 0 := by omega
    rw [hz]
    have hch : (blockOffsets data.length (A * P) (off * P)).mapM (fun o =>
        if o + 0 ≤ data.length then some ((data.drop o).take 0) else none) =
        some ((blockOffsets data.length (A * P) (off * P)).map fun _ => []) := by
      apply mapM_some
      intro o ho
      have := blockOffsets_ge ho
      rw [if_pos (by omega)]; simp
    rw [hch]
    refine ⟨[], by simp, by simp, fun b t _ ht => by omega⟩

theorem rowMajor_axis {pre post ip jp : List Nat} (A a : Nat) (hi : InBounds pre ip) :
    rowMajor (pre ++ A :: post) (ip ++ a :: jp) =
      rowMajor pre ip * (A * post.prod) + (a * post.prod + rowMajor post jp) := by
  rw [rowMajor_append hi.length]
  simp [rowMajor]

theorem inBounds_axis {pre post ip jp : List Nat} {A a : Nat} (hi : InBounds pre ip) :
    InBounds (pre ++ A :: post) (ip ++ a :: jp) ↔ a < A ∧ InBounds post jp := by
  rw [inBounds_append hi.length, inBounds_cons]
  tauto

theorem InBounds.splitAxis {pre post idx : List Nat} {A : Nat}
    (h : InBounds (pre ++ A :: post) idx) :
    ∃ ip a jp, idx = ip ++ a :: jp ∧ InBounds pre ip ∧ a < A ∧ InBounds post jp := by
  obtain ⟨i1, i2, rfl, h1, h2⟩ := InBounds.split h
  cases i2 with
  | nil => simp at h2
  | cons a jp =>
    obtain ⟨ha, hj⟩ := inBounds_cons.1 h2
    exact ⟨i1, a, jp, rfl, h1, ha, hj⟩

theorem axis_lt {a A P q : Nat} (ha : a < A) (hq : q < P) : a * P + q < A * P := by
  have : (a + 1) * P ≤ A * P := Nat.mul_le_mul_right _ ha
  have e : (a + 1) * P = a * P + P := by ring
  omega

theorem splitLoop_spec {e : Elms W} {data : List W} {pre post : List Nat} {A : Nat}
    (hs : e.shape = pre ++ A :: post) (hd : data.length = e.shape.prod)
    (hv : ∀ idx, InBounds e.shape idx → data[rowMajor e.shape idx]? = value e idx)
    (sizes : List Nat) (off : Nat) (hle : off + sizes.sum ≤ A) :
    ∃ ps, splitLoop data e.shape pre.length (A * post.prod) post.prod (off * post.prod) sizes
        = some ps ∧ ps.length = sizes.length ∧
      ∀ (i : Nat) p sz, ps[i]? = some p → sizes[i]? = some sz →
        Built p ∧ p.shape = pre ++ sz :: post ∧
        ∀ ip a jp, InBounds pre ip → a < sz → InBounds post jp →
          value p (ip ++ a :: jp) = value e (ip ++ (off + (sizes.take i).sum + a) :: jp) := by
  induction sizes generalizing off with
  | nil => exact ⟨[], rfl, rfl, by simp⟩
  | cons sz sizes ih =>
    rw [List.sum_cons] at hle
    have hset : e.shape.set pre.length sz = pre ++ sz :: post := by rw [hs]; simp
    have hdl : data.length = pre.prod * (A * post.prod) := by rw [hd, hs]; simp
    obtain ⟨d, d1, d2, d3⟩ := splitImpl_spec data pre.prod A post.prod off sz hdl (by omega)
    obtain ⟨ps, p1, p2, p3⟩ := ih (off + sz) (by omega)
    have hlen : d.length = (pre ++ sz :: post).prod := by rw [d2]; simp
    refine ⟨fromWideNums (pre ++ sz :: post) d :: ps, ?_, by simp [p2], ?_⟩
    · unfold splitLoop
      simp only [hset, d1, Option.bind_some, hlen, if_true]
      rw [← Nat.add_mul, p1]; rfl
    · intro i p sz' hi hsz
      cases i with
      | zero =>
        simp only [List.getElem?_cons_zero, Option.some.injEq] at hi hsz
        subst hi; subst hsz
        refine ⟨Built.ofBuffer _ _ hlen, rfl, ?_⟩
        intro ip a jp h1 h2 h3
        rw [value_fromWideNums, rowMajor_axis _ _ h1,
          d3 _ _ (rowMajor_lt h1) (axis_lt h2 (rowMajor_lt h3))]
        rw [← hv _ (by rw [hs, inBounds_axis h1]; exact ⟨by simp; omega, h3⟩), hs,
          rowMajor_axis _ _ h1]
        congr 1
        simp
        ring
      | succ i =>
        simp only [List.getElem?_cons_succ] at hi hsz
        obtain ⟨q1, q2, q3⟩ := p3 i p sz' hi hsz
        refine ⟨q1, q2, fun ip a jp h1 h2 h3 => ?_⟩
        rw [q3 ip a jp h1 h2 h3]
        simp only [List.take_succ_cons, List.sum_cons, Nat.add_assoc]

theorem split_spec {e : Elms W} (hB : Built e) {pre post : List Nat} {A : Nat}
    (hs : e.shape = pre ++ A :: post) (sizes : List Nat) (hsum : sizes.sum = A)
    (hA : 0 < A ∨ sizes.length ≤ 1) :
    ∃ ps, split e pre.length sizes = some ps ∧ ps.length = sizes.length ∧
      ∀ (i : Nat) p sz, ps[i]? = some p → sizes[i]? = some sz →
        Built p ∧ p.shape = pre ++ sz :: post ∧
        ∀ ip a jp, InBounds pre ip → a < sz → InBounds post jp →
          value p (ip ++ a :: jp) = value e (ip ++ ((sizes.take i).sum + a) :: jp) := by
  have h := hB.wf
  have hax : e.shape.getD pre.length 0 = A := by rw [hs]; simp
  unfold split
  rw [hax]
  simp only
  rw [if_neg (by simp only [not_not]; exact ⟨by rw [hs]; simp, hsum⟩)]
  split
  · rename_i h0
    have := List.length_eq_zero_iff.1 h0
    subst this
    exact ⟨[], rfl, rfl, by simp⟩
  · split
    · rename_i h1
      obtain ⟨sz, rfl⟩ := List.length_eq_one_iff.1 h1
      refine ⟨[e], rfl, rfl, ?_⟩
      intro i p sz' hi hsz
      cases i with
      | succ i => simp at hi
      | zero =>
        simp only [List.getElem?_cons_zero, Option.some.injEq] at hi hsz
        subst hi; subst hsz
        have : sz = A := by simpa using hsum
        subst this
        exact ⟨hB, hs, fun ip a jp _ _ _ => by simp⟩
    · rename_i h0 h1
      obtain ⟨data, w1, w2, w3⟩ := h.wideNums_value
      have hA' : 0 < A := by omega
      rw [w1, Option.bind_some, if_neg (by omega)]
      have hdrop : (e.shape.drop pre.length).prod = A * post.prod := by rw [hs]; simp
      rw [hdrop, Nat.mul_div_cancel_left _ hA']
      obtain ⟨ps, p1, p2, p3⟩ := splitLoop_spec hs w2 w3 sizes 0 (by omega)
      rw [Nat.zero_mul] at p1
      refine ⟨ps, p1, p2, fun i p sz hi hsz => ?_⟩
      obtain ⟨q1, q2, q3⟩ := p3 i p sz hi hsz
      exact ⟨q1, q2, fun ip a jp a1 a2 a3 => by rw [q3 ip a jp a1 a2 a3]; simp⟩

/-! ## Concat -/

theorem concatBlocks_spec (inLen : Nat) (offs : List Nat) (seq : List W)
    (h : seq.length = offs.length * inLen) :
    ∃ ws, concatBlocks inLen offs seq = some ws ∧
      ∀ k v, (k, v) ∈ ws ↔ ∃ b t o, offs[b]? = some o ∧ t < inLen ∧ k = o + t ∧
        seq[b * inLen + t]? = some v := by
  induction offs generalizing seq with
  | nil =>
    have : seq = [] := List.length_eq_zero_iff.1 (by simpa using h)
    subst this
    exact ⟨[], by simp [concatBlocks], by simp⟩
  | cons o os ih =>
    have hl : seq.length = os.length * inLen + inLen := by rw [h]; simp; ring
    obtain ⟨ws, w1, w2⟩ := ih (seq.drop inLen) (by simp; omega)
    refine ⟨List.zip (List.range' o inLen) (seq.take inLen) ++ ws, ?_, ?_⟩
    · rw [concatBlocks, if_neg (by omega), w1]; rfl
    · intro k v
      rw [List.mem_append, w2]
      constructor
      · rintro (hm | ⟨b, t, o', h1, h2, h3, h4⟩)
        · obtain ⟨t, ht, hz⟩ := List.getElem_of_mem hm
          have ht' : t < inLen := by simp at ht; omega
          rw [List.getElem_zip, Prod.mk.injEq] at hz
          refine ⟨0, t, o, by simp, ht', ?_, ?_⟩
          · rw [← hz.1]; simp
          · rw [← hz.2]; simp
        · refine ⟨b + 1, t, o', by simpa using h1, h2, h3, ?_⟩
          rw [← h4, List.getElem?_drop]
          congr 1; ring
      · rintro ⟨b, t, o', h1, h2, h3, h4⟩
        cases b with
        | zero =>
          left
          simp only [List.getElem?_cons_zero, Option.some.injEq] at h1
          subst h1
          simp only [Nat.zero_mul, Nat.zero_add] at h4
          obtain ⟨hlt, hv⟩ := List.getElem?_eq_some_iff.1 h4
          rw [List.mem_iff_getElem]
          refine ⟨t, by simp; omega, ?_⟩
          rw [List.getElem_zip]
          simp [hv, h3]
        | succ b =>
          right
          refine ⟨b, t, o', by simpa using h1, h2, h3, ?_⟩
          rw [List.getElem?_drop, ← h4]
          congr 1; ring

theorem concatLoop_spec {pre post : List Nat} (A : Nat) (es : List (Elms W))
    (hwf : ∀ e ∈ es, WF e) (hsh : ∀ e ∈ es, e.shape = pre ++ e.shape.getD pre.length 0 :: post)
    (off : Nat) (hle : off + (es.map fun e => e.shape.getD pre.length 0).sum ≤ A) :
    ∃ ws, concatLoop (pre ++ A :: post).prod pre.length post.prod (A * post.prod)
        (off * post.prod) es = some ws ∧
      ∀ k v, (k, v) ∈ ws ↔ ∃ (i : Nat) (e : Elms W) (ip : List Nat) (a : Nat) (jp : List Nat),
        es[i]? = some e ∧ InBounds pre ip ∧
        a < e.shape.getD pre.length 0 ∧ InBounds post jp ∧ value e (ip ++ a :: jp) = some v ∧
        k = rowMajor (pre ++ A :: post) (ip ++
          (off + ((es.take i).map fun e => e.shape.getD pre.length 0).sum + a) :: jp) := by
  induction es generalizing off with
  | nil => exact ⟨[], rfl, by simp⟩
  | cons e es ih =>
    rw [List.map_cons, List.sum_cons] at hle
    set n := e.shape.getD pre.length 0 with hn
    have hs : e.shape = pre ++ n :: post := hsh e (by simp)
    obtain ⟨seq, s1, s2, s3⟩ := (hwf e (by simp)).iter_eq
    have hprod : (pre ++ A :: post).prod = pre.prod * (A * post.prod) := by simp
    have hsl : seq.length = pre.prod * (n * post.prod) := by rw [s2, hs]; simp
    obtain ⟨ws2, p1, p2⟩ := ih (fun e he => hwf e (by simp [he])) (fun e he => hsh e (by simp [he]))
      (off + n) (by omega)
    -- writes of this input
    have key : ∃ ws, concatBlocks (n * post.prod)
        (blockOffsets (pre ++ A :: post).prod (A * post.prod) (off * post.prod)) seq = some ws ∧
        ∀ k v, (k, v) ∈ ws ↔ ∃ (ip : List Nat) (a : Nat) (jp : List Nat), InBounds pre ip ∧ a < n ∧
          InBounds post jp ∧
          value e (ip ++ a :: jp) = some v ∧
          k = rowMajor (pre ++ A :: post) (ip ++ (off + a) :: jp) := by
      by_cases hz : n * post.prod = 0
      · have hseq : seq = [] := List.length_eq_zero_iff.1 (by rw [hsl, hz]; simp)
        have hnil : ∀ offs : List Nat, concatBlocks (n * post.prod) offs ([] : List W) = some [] := by
          intro offs
          rw [hz]
          induction offs with
          | nil => simp [concatBlocks]
          | cons o os ih => simp [concatBlocks, ih]
        refine ⟨[], by rw [hseq]; exact hnil _, fun k v => ?_⟩
        constructor
        · simp
        · rintro ⟨ip, a, jp, -, h2, h3, -⟩
          have := axis_lt h2 (rowMajor_lt h3)
          omega
      · have hnp : 0 < n := Nat.pos_of_ne_zero fun h => hz (by rw [h]; simp)
        have hP : 0 < post.prod := Nat.pos_of_ne_zero fun h => hz (by rw [h]; simp)
        have hlt : off * post.prod < A * post.prod :=
          Nat.mul_lt_mul_of_pos_right (by omega) hP
        rw [hprod, blockOffsets_spec hlt]
        obtain ⟨ws, w1, w2⟩ := concatBlocks_spec (n * post.prod)
          ((List.range pre.prod).map fun b => off * post.prod + b * (A * post.prod)) seq
          (by rw [hsl]; simp)
        refine ⟨ws, w1, fun k v => ?_⟩
        rw [w2]
        constructor
        · rintro ⟨b, t, o, h1, h2, h3, h4⟩
          rw [List.getElem?_map, Option.map_eq_some_iff] at h1
          obtain ⟨b', hb1, rfl⟩ := h1
          have hb : b < pre.prod := by
            have := (List.getElem?_eq_some_iff.1 hb1).1
            simpa using this
          have hbb : b' = b := by
            rw [List.getElem?_eq_getElem (by simpa using hb)] at hb1
            simpa using hb1.symm
          subst hbb
          have ha : t / post.prod < n := (Nat.div_lt_iff_lt_mul hP).2 h2
          have hj : t % post.prod < post.prod := Nat.mod_lt _ hP
          have ht : t / post.prod * post.prod + t % post.prod = t := Nat.div_add_mod' t _
          refine ⟨unrank pre b', t / post.prod, unrank post (t % post.prod), unrank_inBounds hb, ha,
            unrank_inBounds hj, ?_, ?_⟩
          · rw [← s3 _ (by rw [hs, inBounds_axis (unrank_inBounds hb)]
                           exact ⟨ha, unrank_inBounds hj⟩), hs,
              rowMajor_axis _ _ (unrank_inBounds hb), rowMajor_unrank hb, rowMajor_unrank hj, ht]
            exact h4
          · rw [rowMajor_axis _ _ (unrank_inBounds hb), rowMajor_unrank hb, rowMajor_unrank hj, h3,
              Nat.add_mul]
            omega
        · rintro ⟨ip, a, jp, h1, h2, h3, h4, h5⟩
          refine ⟨rowMajor pre ip, a * post.prod + rowMajor post jp,
            off * post.prod + rowMajor pre ip * (A * post.prod), ?_,
            axis_lt h2 (rowMajor_lt h3), ?_, ?_⟩
          · rw [List.getElem?_map, List.getElem?_range (rowMajor_lt h1)]; rfl
          · rw [h5, rowMajor_axis _ _ h1, Nat.add_mul]; omega
          · rw [← h4, ← s3 _ (by rw [hs, inBounds_axis h1]; exact ⟨h2, h3⟩), hs,
              rowMajor_axis _ _ h1]
    obtain ⟨ws, w1, w2⟩ := key
    refine ⟨ws ++ ws2, ?_, fun k v => ?_⟩
    · unfold concatLoop
      simp only [← hn, s1, Option.bind_some, w1]
      rw [← Nat.add_mul, p1]; rfl
    · rw [List.mem_append, w2, p2]
      constructor
      · rintro (⟨ip, a, jp, h1, h2, h3, h4, h5⟩ | ⟨i, e', ip, a, jp, h0, h1, h2, h3, h4, h5⟩)
        · exact ⟨0, e, ip, a, jp, by simp, h1, h2, h3, h4, by simpa using h5⟩
        · exact ⟨i + 1, e', ip, a, jp, by simpa using h0, h1, h2, h3, h4, by
            rw [h5]; simp only [List.take_succ_cons, List.map_cons, List.sum_cons, ← hn,
              Nat.add_assoc]⟩
      · rintro ⟨i, e', ip, a, jp, h0, h1, h2, h3, h4, h5⟩
        cases i with
        | zero =>
          simp only [List.getElem?_cons_zero, Option.some.injEq] at h0
          subst h0
          exact Or.inl ⟨ip, a, jp, h1, h2, h3, h4, by simpa using h5⟩
        | succ i =>
          refine Or.inr ⟨i, e', ip, a, jp, by simpa using h0, h1, h2, h3, h4, ?_⟩
          rw [h5]; simp only [List.take_succ_cons, List.map_cons, List.sum_cons, ← hn,
              Nat.add_assoc]

/-- Which part a position of a concatenation falls in. -/
theorem locate (ns : List Nat) (k : Nat) (h : k < ns.sum) :
    ∃ (i : Nat) (n : Nat) (a : Nat), ns[i]? = some n ∧ a < n ∧ k = (ns.take i).sum + a := by
  induction ns generalizing k with
  | nil => simp at h
  | cons n ns ih =>
    rw [List.sum_cons] at h
    by_cases hk : k < n
    · exact ⟨0, n, k, by simp, hk, by simp⟩
    · obtain ⟨i, m, a, h1, h2, h3⟩ := ih (k - n) (by omega)
      exact ⟨i + 1, m, a, by simpa using h1, h2, by
        simp only [List.take_succ_cons, List.sum_cons]; omega⟩

theorem locate_unique {ns : List Nat} {i j n m a b : Nat} (hi : ns[i]? = some n) (ha : a < n)
    (hj : ns[j]? = some m) (hb : b < m) (h : (ns.take i).sum + a = (ns.take j).sum + b) :
    i = j ∧ a = b := by
  induction ns generalizing i j with
  | nil => simp at hi
  | cons x ns ih =>
    rcases i with _ | i <;> rcases j with _ | j
    · simp at h; exact ⟨rfl, h⟩
    · simp only [List.getElem?_cons_zero, Option.some.injEq] at hi
      simp only [List.take_zero, List.sum_nil, List.take_succ_cons, List.sum_cons] at h
      omega
    · simp only [List.getElem?_cons_zero, Option.some.injEq] at hj
      simp only [List.take_zero, List.sum_nil, List.take_succ_cons, List.sum_cons] at h
      omega
    · simp only [List.getElem?_cons_succ] at hi hj
      simp only [List.take_succ_cons, List.sum_cons] at h
      obtain ⟨h1, h2⟩ := ih hi hj (by omega)
      exact ⟨by omega, h2⟩

theorem concat_spec {es : List (Elms W)} {pre post : List Nat} (hB : ∀ e ∈ es, Built e)
    (hne : es ≠ []) (ns : List Nat) (hsh : es.map (·.shape) = ns.map fun n => pre ++ n :: post) :
    ∃ r, concat es pre.length = some r ∧ Built r ∧ r.shape = pre ++ ns.sum :: post ∧
      ∀ (i : Nat) e n, es[i]? = some e → ns[i]? = some n →
        ∀ ip a jp, InBounds pre ip → a < n → InBounds post jp →
          value r (ip ++ ((ns.take i).sum + a) :: jp) = value e (ip ++ a :: jp) := by
  have hlen : es.length = ns.length := by
    have := congrArg List.length hsh
    simpa using this
  have hget : ∀ (i : Nat) e n, es[i]? = some e → ns[i]? = some n → e.shape = pre ++ n :: post := by
    intro i e n h1 h2
    have := congrArg (·[i]?) hsh
    simp only [List.getElem?_map, h1, h2, Option.map_some, Option.some.injEq] at this
    exact this
  have hnsE : es.map (fun e => e.shape.getD pre.length 0) = ns := by
    have : es.map (fun e => e.shape.getD pre.length 0) =
        (es.map (·.shape)).map fun s => s.getD pre.length 0 := by simp
    rw [this, hsh, List.map_map]
    conv_rhs => rw [← List.map_id ns]
    apply List.map_congr_left
    intro n _
    simp
  have hsh' : ∀ e ∈ es, e.shape = pre ++ e.shape.getD pre.length 0 :: post := by
    intro e he
    have : e.shape ∈ es.map (·.shape) := List.mem_map.2 ⟨e, he, rfl⟩
    rw [hsh, List.mem_map] at this
    obtain ⟨n, -, hn⟩ := this
    rw [← hn]; simp
  cases hes : es with
  | nil => exact absurd hes hne
  | cons first rest =>
    have hf : first.shape = pre ++ first.shape.getD pre.length 0 :: post :=
      hsh' first (by rw [hes]; simp)
    have hfl : first.shape.length = pre.length + 1 + post.length := by
      rw [hf]; simp; omega
    unfold concat
    simp only
    rw [if_neg (by rw [not_not]; omega)]
    by_cases hrest : rest = []
    · subst hrest
      rw [if_pos rfl]
      have hn1 : ns.length = 1 := by rw [← hlen, hes]; rfl
      obtain ⟨n, rfl⟩ := List.length_eq_one_iff.1 hn1
      have hs := hget 0 first n (by rw [hes]; rfl) rfl
      refine ⟨first, rfl, hB first (by rw [hes]; simp), by simpa using hs, ?_⟩
      intro i e n' h1 h2 ip a jp h3 h4 h5
      cases i with
      | succ i => simp at h1
      | zero => simp at h1; subst h1; simp
    · rw [if_neg hrest, if_neg (by
        rw [not_not]
        intro e he
        have h1 := hsh' e (by rw [hes]; simp [he])
        have hl : e.shape.length = first.shape.length := by
          rw [hfl, h1]; simp; omega
        refine ⟨hl, fun a ha => ?_⟩
        by_cases hax : a = pre.length
        · exact Or.inl hax
        · right
          rw [h1, hf]
          rcases Nat.lt_or_ge a pre.length with h2 | h2
          · simp only [List.getD_eq_getElem?_getD]
            rw [List.getElem?_append_left h2, List.getElem?_append_left h2]
          · simp only [List.getD_eq_getElem?_getD]
            rw [List.getElem?_append_right h2, List.getElem?_append_right h2]
            have : a - pre.length = (a - pre.length - 1) + 1 := by omega
            rw [this, List.getElem?_cons_succ, List.getElem?_cons_succ])]
      rw [← hes, hnsE]
      have hset : first.shape.set pre.length ns.sum = pre ++ ns.sum :: post := by
        rw [hf]; simp
      rw [hset]
      have hdrop : ((pre ++ ns.sum :: post).drop (pre.length + 1)) = post := by
        rw [← List.drop_drop]; simp
      have hgetA : (pre ++ ns.sum :: post).getD pre.length 0 = ns.sum := by simp
      rw [hdrop, hgetA]
      obtain ⟨ws, w1, w2⟩ := concatLoop_spec (pre := pre) (post := post) ns.sum es
        (fun e he => (hB e he).wf) hsh' 0 (by rw [hnsE]; omega)
      rw [Nat.zero_mul] at w1
      rw [w1, Option.bind_some]
      have w2' : ∀ k v, (k, v) ∈ ws ↔ ∃ (i : Nat) (e : Elms W) (n : Nat) (ip : List Nat) (a : Nat)
          (jp : List Nat), es[i]? = some e ∧ ns[i]? = some n ∧
          InBounds pre ip ∧ a < n ∧ InBounds post jp ∧ value e (ip ++ a :: jp) = some v ∧
          k = rowMajor (pre ++ ns.sum :: post) (ip ++ ((ns.take i).sum + a) :: jp) := by
        intro k v
        rw [w2]
        have htake : ∀ i : Nat, (es.take i).map (fun e => e.shape.getD pre.length 0) = ns.take i := by
          intro i; rw [List.map_take, hnsE]
        have hns : ∀ (i : Nat) e, es[i]? = some e → ns[i]? = some (e.shape.getD pre.length 0) := by
          intro i e he
          have := congrArg (·[i]?) hnsE
          simp only [List.getElem?_map, he, Option.map_some] at this
          exact this.symm
        constructor
        · rintro ⟨i, e, ip, a, jp, h0, h1, h2, h3, h4, h5⟩
          exact ⟨i, e, _, ip, a, jp, h0, hns i e h0, h1, h2, h3, h4, by
            rw [h5, htake]; simp⟩
        · rintro ⟨i, e, n, ip, a, jp, h0, h0', h1, h2, h3, h4, h5⟩
          have := hns i e h0
          rw [h0'] at this
          simp only [Option.some.injEq] at this
          subst this
          exact ⟨i, e, ip, a, jp, h0, h1, h2, h3, h4, by rw [h5, htake]; simp⟩
      have hin : ∀ i n a, ns[i]? = some n → a < n → (ns.take i).sum + a < ns.sum := by
        intro i n a h1 h2
        have hil := (List.getElem?_eq_some_iff.1 h1).1
        have : ns = ns.take i ++ n :: ns.drop (i + 1) := by
          have h3 := (List.getElem?_eq_some_iff.1 h1).2
          rw [← h3]; simp
        conv_rhs => rw [this]
        simp; omega
      obtain ⟨l, l1, l2, l3⟩ := fill_spec (n := (pre ++ ns.sum :: post).prod) (ws := ws)
        (by
          rintro ⟨k, v⟩ hw
          obtain ⟨i, e, n, ip, a, jp, h0, h0', h1, h2, h3, h4, h5⟩ := (w2' k v).1 hw
          rw [h5]
          exact rowMajor_lt ((inBounds_axis h1).2 ⟨hin i n a h0' h2, h3⟩))
        (by
          intro k hk
          have hb := unrank_inBounds hk
          obtain ⟨ip, A, jp, hidx, h1, h2, h3⟩ := InBounds.splitAxis hb
          obtain ⟨i, n, a, g1, g2, g3⟩ := locate ns A h2
          have hil := (List.getElem?_eq_some_iff.1 g1).1
          have hei : es[i]? = some (es[i]'(by omega)) := List.getElem?_eq_getElem _
          have hbd : InBounds (es[i]'(by omega)).shape (ip ++ a :: jp) := by
            rw [hget i _ n hei g1, inBounds_axis h1]; exact ⟨g2, h3⟩
          obtain ⟨v, hv⟩ := (hB _ (List.getElem_mem (by omega : i < es.length))).wf.value_some hbd
          refine ⟨v, (w2' k v).2 ⟨i, _, n, ip, a, jp, hei, g1, h1, g2, h3, hv, ?_⟩⟩
          rw [← g3, ← hidx, rowMajor_unrank hk])
        (by
          intro k v v' hv hv'
          obtain ⟨i, e, n, ip, a, jp, h0, h0', h1, h2, h3, h4, h5⟩ := (w2' k v).1 hv
          obtain ⟨i', e', n', ip', a', jp', g0, g0', g1, g2, g3, g4, g5⟩ := (w2' k v').1 hv'
          have heq := rowMajor_inj ((inBounds_axis h1).2 ⟨hin i n a h0' h2, h3⟩)
            ((inBounds_axis g1).2 ⟨hin i' n' a' g0' g2, g3⟩) (h5.symm.trans g5)
          have hl2 : ip.length = ip'.length := by rw [h1.length, g1.length]
          obtain ⟨e1, e2⟩ := List.append_inj heq hl2
          simp only [List.cons.injEq] at e2
          obtain ⟨e3, e4⟩ := locate_unique h0' h2 g0' g2 e2.1
          subst e3
          rw [h0] at g0
          simp only [Option.some.injEq] at g0
          subst g0
          rw [← e1, ← e4, ← e2.2, h4] at g4
          simpa using g4)
      rw [l1, Option.map_some]
      refine ⟨_, rfl, Built.ofBuffer _ _ l2, rfl, ?_⟩
      intro i e n h1 h2 ip a jp h3 h4 h5
      rw [value_fromWideNums]
      have hbd : InBounds e.shape (ip ++ a :: jp) := by
        rw [hget i e n h1 h2, inBounds_axis h3]; exact ⟨h4, h5⟩
      obtain ⟨v, hv⟩ := (hB e (List.mem_of_getElem? h1)).wf.value_some hbd
      rw [hv]
      exact l3 _ v ((w2' _ v).2 ⟨i, e, n, ip, a, jp, h1, h2, h3, h4, h5, hv, rfl⟩)

end Verif.Elems
