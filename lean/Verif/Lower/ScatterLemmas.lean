import Verif.Lower.GatherLemmas

/-!
Lemmas about the models of the scatter and one-hot lowerings.
-/

namespace Verif.Lower

variable {R : Type*}

theorem lastStore_split {α : Type*} {L1 L2 : List α} {tgt : α → Idx} {val : α → R} {old : Idx → R}
    {a : α} (h : ∀ b ∈ L2, tgt b ≠ tgt a) : lastStore (L1 ++ a :: L2) tgt val old (tgt a) = val a := by
  unfold lastStore
  have h2 : L2.filter (fun b => decide (tgt b = tgt a)) = [] := by
    rw [List.filter_eq_nil_iff]
    intro b hb
    simpa using h b hb
  rw [List.filter_append, List.filter_cons, h2]
  simp

theorem idxs_sorted {dims : List ℤ} (h : ∀ d ∈ dims, 0 ≤ d) :
    (idxs dims).Pairwise fun a b => lin dims a < lin dims b := by
  have := idxs_lin h
  have hp : ((idxs dims).map (lin dims)).Pairwise (· < ·) := by
    rw [this, upto, List.pairwise_map]
    refine List.pairwise_lt_range.imp ?_
    intro a b hab
    exact_mod_cast hab
  exact List.pairwise_map.1 hp

/-- The store of the last index, in row-major order, with a target wins. -/
theorem lastStore_idxs {dims : List ℤ} (hd : ∀ d ∈ dims, 0 ≤ d) {tgt : Idx → Idx} {val : Idx → R}
    {old : Idx → R} {p : Idx} (hp : InShape p dims)
    (hl : ∀ q, InShape q dims → tgt q = tgt p → lin dims q ≤ lin dims p) :
    lastStore (idxs dims) tgt val old (tgt p) = val p := by
  obtain ⟨L1, L2, e⟩ := List.append_of_mem (mem_idxs.2 hp)
  rw [e]
  refine lastStore_split fun b hb ht => ?_
  have hs := idxs_sorted hd
  rw [e, List.pairwise_append] at hs
  have h2 := (List.pairwise_cons.1 hs.2.1).1 b hb
  have := hl b (mem_idxs.1 (by rw [e]; simp [hb])) ht
  omega

/-- Result of a sequence of stores, one per index of a loop nest. -/
theorem scatter_spec {dims : List ℤ} (hd : ∀ d ∈ dims, 0 ≤ d) (f : Idx → Option (Idx × R)) (tgt : Idx → Idx)
    (val : Idx → R) (m : Mem R)
    (h : ∀ p, InShape p dims → f p = some (tgt p, val p) ∧ InShape (tgt p) m.shape) :
    ∃ out, (idxs dims).foldlM (fun o a => (f a).bind fun p => Mem.store o p.1 p.2) m = some out ∧
      out.shape = m.shape ∧
      (∀ p, InShape p dims → (∀ q, InShape q dims → tgt q = tgt p → lin dims q ≤ lin dims p) →
        out.data (tgt p) = val p) ∧
      ∀ x, (∀ p, InShape p dims → tgt p ≠ x) → out.data x = m.data x := by
  rw [storeLoop_spec f tgt val (idxs dims) m fun a ha => h a (mem_idxs.1 ha)]
  refine ⟨_, rfl, rfl, ?_, ?_⟩
  · intro p hp hl
    exact lastStore_idxs hd hp hl
  · intro x hx
    exact lastStore_none fun b hb => hx b (mem_idxs.1 hb)

/-- Target of an update of ScatterElements: the coordinate of the axis is replaced. -/
def elemTarget (n : ℕ) (d : ℤ) (ind : Mem ℤ) (p : Idx) : Idx := p.set n (wrapIdx d (ind.data p))

theorem set_mid (a c : Idx) (j v : ℤ) : (a ++ [j] ++ c).set a.length v = a ++ [v] ++ c := by
  rw [List.append_assoc, List.set_append]
  simp

theorem scatterElements_spec {da dc ua uc : List ℤ} {d m : ℤ} {data upd : Mem R} {ind : Mem ℤ} {axis : ℤ}
    {mayNeg : Bool} (hdata : data.shape = da ++ [d] ++ dc) (hupd : upd.shape = ua ++ [m] ++ uc)
    (hind : ind.shape = upd.shape) (hpos : ∀ x ∈ upd.shape, 0 ≤ x)
    (hla : List.Forall₂ (· ≤ ·) ua da) (hlc : List.Forall₂ (· ≤ ·) uc dc)
    (hax : axis = da.length ∨ axis = (da.length : ℤ) - data.shape.length)
    (hr : ∀ p, InShape p ind.shape → -d ≤ ind.data p ∧ ind.data p < d)
    (hneg : mayNeg = true ∨ ∀ p, InShape p ind.shape → 0 ≤ ind.data p) :
    ∃ out, scatterElements data ind upd axis mayNeg = some out ∧ out.shape = data.shape ∧
      (∀ p, InShape p upd.shape →
        (∀ q, InShape q upd.shape → elemTarget da.length d ind q = elemTarget da.length d ind p →
          lin upd.shape q ≤ lin upd.shape p) →
        out.data (elemTarget da.length d ind p) = upd.data p) ∧
      ∀ x, (∀ p, InShape p upd.shape → elemTarget da.length d ind p ≠ x) → out.data x = data.data x := by
  have hn : normAxis data.shape.length axis = da.length :=
    normAxis_eq hax (by rw [hdata]; simp)
  unfold scatterElements
  simp only [hn]
  refine scatter_spec hpos _ (elemTarget da.length d ind) upd.data data ?_
  intro p hp
  have hp' := hp
  rw [hupd] at hp'
  obtain ⟨a, j, c, e, ha, hj, hc⟩ := inShape_split3 hp'
  obtain ⟨j, rfl⟩ : ∃ x, j = [x] := List.length_eq_one_iff.1 hj.length
  have hal : a.length = da.length := by rw [ha.length]; exact hla.length_eq
  have hpi : InShape p ind.shape := by rw [hind]; exact hp
  have hw := wrapIdx_range (hr p hpi)
  have e1 : upd.load p = some (upd.data p) := by unfold Mem.load; rw [if_pos hp]
  have e2 : ind.load p = some (ind.data p) := by unfold Mem.load; rw [if_pos hpi]
  have et : elemTarget da.length d ind p = a ++ [wrapIdx d (ind.data p)] ++ c := by
    unfold elemTarget
    rw [← hal]
    conv_lhs => rw [e]
    rw [set_mid, ← e]
  have ea : scatterElemAccess data.shape.length da.length mayNeg (data.shape.getD da.length 0) (ind.data p) p =
      a ++ [wrapIdx d (ind.data p)] ++ c := by
    unfold scatterElemAccess
    have ew : (if mayNeg then (if ind.data p < 0 then ind.data p + data.shape.getD da.length 0 else ind.data p)
        else ind.data p) = wrapIdx d (ind.data p) := by
      rw [hdata, getD_mid]
      unfold wrapIdx
      rcases hneg with rfl | hneg
      · simp
      · have := hneg p hpi
        have : ¬ ind.data p < 0 := by omega
        simp [this]
    rw [ew]
    generalize wrapIdx d (ind.data p) = w
    rw [e]
    exact replace_axis a c j w _ _ hal.symm (by
      rw [hdata]
      have := hc.length
      have := hlc.length_eq
      simp
      omega)
  refine ⟨?_, ?_⟩
  · rw [e1, Option.bind_some, e2, Option.map_some, ea, et]
  · rw [et, hdata]
    exact inShape_app (inShape_app (inShape_le ha hla) (inShape_one hw)) (inShape_le hc hlc)

theorem scatterND_spec {I X Y : List ℤ} {data upd : Mem R} {ind : Mem ℤ}
    (hdata : data.shape = X ++ Y) (hupd : upd.shape = I ++ Y)
    (hind : ind.shape = I ++ [(X.length : ℤ)]) (hIX : I.length = X.length) (hpos : ∀ x ∈ upd.shape, 0 ≤ x)
    (hr : ∀ i, InShape i I → InShape (tupleAt ind i X.length) X) :
    ∃ out, scatterND data ind upd = some out ∧ out.shape = data.shape ∧
      (∀ i y, InShape i I → InShape y Y →
        (∀ i' y', InShape i' I → InShape y' Y →
          tupleAt ind i' X.length ++ y' = tupleAt ind i X.length ++ y →
          lin upd.shape (i' ++ y') ≤ lin upd.shape (i ++ y)) →
        out.data (tupleAt ind i X.length ++ y) = upd.data (i ++ y)) ∧
      ∀ x, (∀ i y, InShape i I → InShape y Y → tupleAt ind i X.length ++ y ≠ x) → out.data x = data.data x := by
  let tgt : Idx → Idx := fun p => tupleAt ind (p.take I.length) X.length ++ p.drop I.length
  have ht : ∀ i y, InShape i I → tgt (i ++ y) = tupleAt ind i X.length ++ y := by
    intro i y hi
    simp only [tgt, ← hi.length, List.take_left, List.drop_left]
  unfold scatterND
  obtain ⟨out, e, hs, h1, h2⟩ := scatter_spec hpos
    (fun i => ((List.range data.shape.length).mapM (scatterNDIndex ind i)).bind fun acc =>
      (upd.load i).map fun u => (acc, u)) tgt upd.data data (by
    intro p hp
    have hp' := hp
    rw [hupd] at hp'
    obtain ⟨i, y, rfl, hi, hy⟩ := inShape_split' hp'
    have e1 : upd.load (i ++ y) = some (upd.data (i ++ y)) := by unfold Mem.load; rw [if_pos hp]
    rw [ht i y hi]
    refine ⟨?_, by rw [hdata]; exact inShape_app (hr i hi) hy⟩
    have hq : ind.shape.length - 1 = I.length := by rw [hind]; simp
    have hacc : (List.range data.shape.length).mapM (scatterNDIndex ind (i ++ y)) =
        some (tupleAt ind i X.length ++ y) := by
      rw [mapM_some _ (fun k => if k < I.length then ind.data (i ++ [(k : ℤ)]) else y.getD (k - I.length) 0)]
      · congr 1
        rw [hdata, List.length_append, List.range_add, List.map_append]
        congr 1
        · unfold tupleAt
          refine List.map_congr_left fun k hk => ?_
          have := List.mem_range.1 hk
          rw [if_pos (by omega)]
        · rw [List.map_map]
          have : ∀ k ∈ List.range Y.length, ((fun (k : ℕ) => if k < I.length then ind.data (i ++ [(k : ℤ)])
              else y.getD (k - I.length) 0) ∘ fun x => X.length + x) k = y.getD k 0 := by
            intro k hk
            simp only [Function.comp]
            rw [if_neg (by omega)]
            congr 1
            omega
          rw [List.map_congr_left this, ← hy.length, map_getD_range]
      · intro k hk
        have hk := List.mem_range.1 hk
        rw [hdata, List.length_append] at hk
        unfold scatterNDIndex
        rw [hq]
        by_cases hki : k < I.length
        · rw [if_pos hki, if_pos hki, ← hi.length, List.take_left]
          unfold Mem.load
          rw [if_pos]
          rw [hind]
          exact inShape_app hi (inShape_one (by omega))
        · rw [if_neg hki, if_neg hki]
          have hyl := hy.length
          have hil := hi.length
          have : min k ((i ++ y).length - 1) = k := by
            simp only [List.length_append]; omega
          rw [this, getD_right _ _ (by omega), hil]
    rw [hacc, Option.bind_some, e1]
    rfl)
  refine ⟨out, e, hs, ?_, ?_⟩
  · intro i y hi hy hl
    have := h1 (i ++ y) (by rw [hupd]; exact inShape_app hi hy) (by
      intro q hq heq
      rw [hupd] at hq
      obtain ⟨i', y', rfl, hi', hy'⟩ := inShape_split' hq
      rw [ht _ _ hi', ht _ _ hi] at heq
      exact hl i' y' hi' hy' heq)
    rwa [ht i y hi] at this
  · intro x hx
    refine h2 x fun p hp => ?_
    rw [hupd] at hp
    obtain ⟨i, y, rfl, hi, hy⟩ := inShape_split' hp
    rw [ht i y hi]
    exact hx i y hi hy

/-! ### OneHot -/

theorem foldlM_flatMap' {α β S : Type*} (g : α → List β) (h : S → β → Option S) (f : S → α → Option S) :
    ∀ (L : List α) (s : S), (∀ a ∈ L, ∀ s, f s a = (g a).foldlM h s) →
      L.foldlM f s = (L.flatMap g).foldlM h s
  | [], s, _ => rfl
  | a :: L, s, hh => by
    rw [List.foldlM_cons, List.flatMap_cons, List.foldlM_append, hh a (by simp)]
    congr 1
    funext s'
    exact foldlM_flatMap' g h f L s' fun b hb => hh b (by simp [hb])

theorem oneHotAccess_eq (a c : Idx) (d : ℤ) (n : ℕ) (hn : n = a.length + c.length) :
    oneHotAccess n a.length d (a ++ c) = a ++ [d] ++ c := by
  unfold oneHotAccess
  subst hn
  rw [show a.length + c.length + 1 = a.length + 1 + c.length by omega, range_mid]
  simp only [if_true]
  congr 1
  · congr 1
    have : ∀ i ∈ List.range a.length, (if i = a.length then d
        else (a ++ c).getD (i - if a.length < i then 1 else 0) 0) = a.getD i 0 := by
      intro i hi
      have hi := List.mem_range.1 hi
      rw [if_neg (by omega), if_neg (by omega), Nat.sub_zero, getD_left _ _ hi]
    rw [List.map_congr_left this, map_getD_range]
  · have : ∀ i ∈ List.range c.length, (if a.length + 1 + i = a.length then d
        else (a ++ c).getD (a.length + 1 + i - if a.length < a.length + 1 + i then 1 else 0) 0) = c.getD i 0 := by
      intro i hi
      rw [if_neg (by omega), if_pos (by omega), getD_right _ _ (by omega)]
      congr 1
      omega
    rw [List.map_congr_left this, map_getD_range]

theorem oneHotShape_eq (a c : Idx) (d : ℤ) : oneHotShape (a ++ c) a.length d = a ++ [d] ++ c := by
  rw [← oneHotAccess_eq a c d (a.length + c.length) rfl]
  unfold oneHotShape oneHotAccess
  rw [List.length_append]
  refine List.map_congr_left fun k _ => ?_
  by_cases h1 : k = a.length
  · rw [if_pos h1, if_pos h1]
  · rw [if_neg h1, if_neg h1]
    by_cases h2 : k < a.length
    · rw [if_pos h2, if_neg (by omega)]; rfl
    · rw [if_neg h2, if_pos (by omega)]

theorem oneHotOn_iff {depth d x : ℤ} (hd : 0 ≤ d ∧ d < depth) : d = oneHotOn depth x ↔ x = d ∨ x = d - depth := by
  unfold oneHotOn
  simp only
  by_cases hx : x < 0
  · simp only [hx, if_true]
    split <;> omega
  · rw [if_neg hx]
    split
    · constructor
      · intro h; omega
      · rintro (h | h) <;> omega
    · constructor
      · intro h; exact .inl h.symm
      · rintro (h | h) <;> omega

theorem oneHot_spec {ia ic : List ℤ} {ind : Mem ℤ} {values : Mem R} {depth : ℤ} {axis : ℤ} (junk : Idx → R)
    (hind : ind.shape = ia ++ ic) (hv : values.shape = [2])
    (hax : axis = ia.length ∨ axis = (ia.length : ℤ) - (ind.shape.length + 1)) :
    ∃ out, oneHot ind depth values axis junk = some out ∧ out.shape = ia ++ [depth] ++ ic ∧
      ∀ a d c, InShape a ia → 0 ≤ d ∧ d < depth → InShape c ic →
        out.data (a ++ [d] ++ c) =
          if ind.data (a ++ c) = d ∨ ind.data (a ++ c) = d - depth then values.data [1] else values.data [0] := by
  have hn : (if axis < 0 then axis + (ind.shape.length + 1) else axis).toNat = ia.length := by
    have : ia.length ≤ ind.shape.length := by rw [hind]; simp
    rcases hax with rfl | rfl
    · rw [if_neg (by omega)]; omega
    · rw [if_pos (by omega)]; omega
  have l0 : values.load [0] = some (values.data [0]) := by
    unfold Mem.load; rw [if_pos (by rw [hv]; decide)]
  have l1 : values.load [1] = some (values.data [1]) := by
    unfold Mem.load; rw [if_pos (by rw [hv]; decide)]
  unfold oneHot
  simp only [hn, l0, l1, Option.bind_some]
  have hsh : oneHotShape ind.shape ia.length depth = ia ++ [depth] ++ ic := by rw [hind, oneHotShape_eq]
  rw [hsh]
  unfold iterate
  let tgt : Idx × ℤ → Idx := fun p => oneHotAccess ind.shape.length ia.length p.2 p.1
  let val : Idx × ℤ → R := fun p =>
    if p.2 = oneHotOn depth (ind.data p.1) then values.data [1] else values.data [0]
  rw [foldlM_flatMap' (fun i => (upto depth).map fun d => (i, d))
    (fun (o : Mem R) p => (some (tgt p, val p)).bind fun q => Mem.store o q.1 q.2)]
  swap
  · intro i hi s
    have e : ind.load i = some (ind.data i) := by unfold Mem.load; rw [if_pos (mem_idxs.1 hi)]
    simp only [e, Option.bind_some, List.foldlM_map]
    rfl
  have htgt : ∀ a d c, InShape a ia → InShape c ic → tgt (a ++ c, d) = a ++ [d] ++ c := by
    intro a d c ha hc
    simp only [tgt, hind, ← ha.length]
    exact oneHotAccess_eq a c d _ (by rw [List.length_append, ha.length, hc.length])
  have hmem : ∀ p : Idx × ℤ, p ∈ ((idxs ind.shape).flatMap fun i => (upto depth).map fun d => (i, d)) ↔
      InShape p.1 ind.shape ∧ 0 ≤ p.2 ∧ p.2 < depth := by
    intro p
    simp only [List.mem_flatMap, List.mem_map, mem_idxs, mem_upto]
    constructor
    · rintro ⟨i, hi, d, hd, rfl⟩; exact ⟨hi, hd⟩
    · rintro ⟨hi, hd⟩; exact ⟨p.1, hi, p.2, hd, rfl⟩
  rw [storeLoop_spec (fun p => some (tgt p, val p)) tgt val]
  swap
  · intro p hp
    obtain ⟨i, d⟩ := p
    obtain ⟨hi, hd⟩ := (hmem _).1 hp
    refine ⟨rfl, ?_⟩
    simp only at hi
    rw [hind] at hi
    obtain ⟨a, c, rfl, ha, hc⟩ := inShape_split' hi
    rw [htgt a d c ha hc]
    exact inShape_app (inShape_app ha (inShape_one hd)) hc
  refine ⟨_, rfl, rfl, ?_⟩
  intro a d c ha hd hc
  simp only
  have hm : (a ++ c, d) ∈ ((idxs ind.shape).flatMap fun i => (upto depth).map fun d => (i, d)) :=
    (hmem _).2 ⟨by rw [hind]; exact inShape_app ha hc, hd⟩
  rw [lastStore_unique hm (htgt a d c ha hc)]
  · simp only [val]
    by_cases h : ind.data (a ++ c) = d ∨ ind.data (a ++ c) = d - depth
    · rw [if_pos h, if_pos ((oneHotOn_iff hd).2 h)]
    · rw [if_neg h, if_neg (fun h' => h ((oneHotOn_iff hd).1 h'))]
  · rintro ⟨i', d'⟩ hp' ht'
    obtain ⟨hi', hd'⟩ := (hmem _).1 hp'
    simp only at hi'
    rw [hind] at hi'
    obtain ⟨a', c', rfl, ha', hc'⟩ := inShape_split' hi'
    rw [htgt a' d' c' ha' hc'] at ht'
    have hl : a'.length = a.length := by rw [ha'.length, ha.length]
    rw [List.append_assoc, List.append_assoc] at ht'
    obtain ⟨rfl, h2⟩ := List.append_inj ht' hl
    simp only [List.cons_append, List.nil_append, List.cons.injEq] at h2
    obtain ⟨rfl, rfl⟩ := h2
    rfl

end Verif.Lower
