import Verif.Dims.SetLemmas

/-!
# The offsets between dimensions are right
-/

namespace Verif.Dims

/-- A relation holds in an execution. -/
def RelOk (g : Graph) (r : Run) (l : Rel) : Prop :=
  InSet g l.tgt ∧ (size g r l.src).map (fun u => u + l.off) = size g r l.tgt

theorem sum_filter_one {α : Type*} (p : α → Bool) (f h : α → ℕ) : ∀ (xs : List α) (x : α), xs.filter p = [x] →
    (∀ w ∈ xs, p w = false → f w = h w) → (∀ w ∈ xs, p w = true → h w = 0) →
    (xs.map f).sum = f x + (xs.map h).sum := by
  intro xs
  induction xs with
  | nil => intro x hx; simp at hx
  | cons a xs ih =>
    intro x hx h1 h2
    by_cases ha : p a = true
    · rw [List.filter_cons_of_pos ha] at hx
      simp only [List.cons.injEq] at hx
      obtain ⟨rfl, hx⟩ := hx
      have h3 : (xs.map f) = xs.map h := by
        apply List.map_congr_left
        intro w hw
        apply h1 w (by simp [hw])
        rw [List.filter_eq_nil_iff] at hx
        simpa using hx w hw
      simp only [List.map_cons, List.sum_cons]
      rw [h3, h2 a (by simp) ha]
      omega
    · rw [List.filter_cons_of_neg ha] at hx
      have := ih x hx (fun w hw => h1 w (by simp [hw])) (fun w hw => h2 w (by simp [hw]))
      simp only [List.map_cons, List.sum_cons]
      rw [this, h1 a (by simp) (by simpa using ha)]
      omega

theorem behind_add {g : Graph} {w : Val} {o : Op} (h : behindReshape g w = some o) :
    defOp g w = some o ∨ ∃ z xs ys x, defOp g w = some ⟨.reshape z, some x :: xs, ys⟩ ∧ defOp g x = some o := by
  unfold behindReshape at h
  split at h
  · rename_i z xs ys hd
    right
    rw [Option.bind_eq_some_iff] at h
    obtain ⟨x, h1, h2⟩ := h
    cases xs with
    | nil => simp [Op.opd] at h1
    | cons a xs =>
      simp [Op.opd] at h1
      subst h1
      exact ⟨z, xs, ys, x, hd, h2⟩
  · exact Or.inl h

section
variable {g : Graph} {r : Run} (hw : WellFormed g) (hx : Executes g r) (hp : Plain g r)
include hw hx hp

/-- `d` is a dimension whose size is dynamic, if its operation is not Dim or Cast. -/
theorem inSet_def (d : Dim) (hin : InSet g d) (o : Op) (hd : defOp g d.1 = some o) (h1 : ∀ a, o.kind ≠ .dim a)
    (h2 : o.kind ≠ .cast) : (g.ty d.1)[d.2]? = some none := by
  rcases hin with hin | ⟨o', hin, hk⟩
  · rw [hin] at hd; simp at hd
  · rw [hin] at hd
    simp only [Option.some.injEq] at hd
    subst hd
    rcases hk with hk | hk | hk
    · exact absurd hk (h1 _)
    · exact absurd hk h2
    · exact hk

theorem offAdd_none (d : Dim) (hin : InSet g d) (o : Op) (hd : defOp g d.1 = some o) : offAdd g d o = none := by
  unfold offAdd
  split
  · rename_i a b hk ha hb
    have hdyn := inSet_def hw hx hp d hin o hd (by rw [hk]; simp) (by rw [hk]; simp)
    have hm := defOp_mem hd
    have h1 := hp.addConst o hm.1 hk d.1 hm.2 (List.mem_of_getElem? hdyn)
    have va : a ∈ o.vals := by
      simp only [Op.vals, List.mem_filterMap, id]
      unfold Op.opd at ha
      cases h : o.operands[0]? with
      | none => rw [h] at ha; simp at ha
      | some q => rw [h] at ha; simp at ha; exact ⟨q, List.mem_of_getElem? h, ha⟩
    have vb : b ∈ o.vals := by
      simp only [Op.vals, List.mem_filterMap, id]
      unfold Op.opd at hb
      cases h : o.operands[1]? with
      | none => rw [h] at hb; simp at hb
      | some q => rw [h] at hb; simp at hb; exact ⟨q, List.mem_of_getElem? h, hb⟩
    rw [h1 a va, h1 b vb]
  · rfl

theorem offConcat_ok (d : Dim) (hin : InSet g d) (o : Op) (hd : defOp g d.1 = some o) (ls : List Rel)
    (h : offConcat g d o = some ls) : ∀ l ∈ ls, RelOk g r l := by
  unfold offConcat at h
  split at h
  · rename_i axis hk
    by_cases hax : (d.2 : ℤ) = (if axis < 0 then axis + (g.ty d.1).length else axis)
    · rw [if_pos hax] at h
      simp only [Option.some.injEq] at h
      subst h
      have hdyn := inSet_def hw hx hp d hin o hd (by rw [hk]; simp) (by rw [hk]; simp)
      have hm := defOp_mem hd
      have hrun := hx.runs o hm.1
      simp only [OpRuns, hk] at hrun
      obtain ⟨xs, y, hne, h1, h2, k, hk1, hax', hall, hsum, hdata⟩ := hrun
      have hyd : d.1 = y := by have := hm.2; rw [h2] at this; simpa using this
      have hv : o.vals = xs := by simp [Op.vals, h1, List.filterMap_map]
      rw [hv]
      have hkd : k = d.2 := by
        rw [hyd, rank_eq hx] at hax
        have hdl : d.2 < (r.shape y).length := by
          rw [← rank_eq hx, ← hyd]; exact (List.getElem?_eq_some_iff.mp hdyn).1
        rcases hax' with hax' | hax'
        · rw [hax', if_neg (by omega)] at hax; omega
        · rw [hax', if_pos (by omega)] at hax; omega
      subst hkd
      intro l hl
      unfold offConcatAt at hl
      split at hl
      · rename_i x hx1
        dsimp only at hl
        split at hl
        · simp only [List.mem_singleton] at hl
          subst hl
          have hxm : x ∈ xs.filter fun x => decide ((g.ty x)[d.2]? = some none) := by rw [hx1]; simp
          simp only [List.mem_filter, decide_eq_true_eq] at hxm
          refine ⟨hin, ?_⟩
          dsimp only
          rw [size_dyn g r (x, d.2) hxm.2, size_dyn g r d hdyn]
          dsimp only
          obtain ⟨a, ha, _⟩ := conforms_get (hx.fits x) d.2 none hxm.2
          rw [ha, hyd, hsum]
          have := sum_filter_one (fun x => decide ((g.ty x)[d.2]? = some none)) (fun w => ((r.shape w)[d.2]?).getD 0)
            (fun w => (((g.ty w)[d.2]?).join).getD 0) xs x hx1 (by
              intro w hwx hwd
              simp only [decide_eq_false_iff_not] at hwd
              cases ht : (g.ty w)[d.2]? with
              | none =>
                have : (r.shape w)[d.2]? = none := by
                  rw [List.getElem?_eq_none_iff, ← rank_eq hx]; exact List.getElem?_eq_none_iff.mp ht
                rw [this]; rfl
              | some t =>
                cases t with
                | none => exact absurd ht hwd
                | some t => rw [conforms_static (hx.fits w) _ _ ht]; rfl) (by
              intro w _ hwd
              simp only [decide_eq_true_eq] at hwd
              rw [hwd]; rfl)
          rw [this, ha]
          simp
        · simp at hl
      · simp at hl
    · rw [if_neg hax] at h; simp at h
  · simp at h

omit hw hx hp in
theorem pieceAt_data (n : ℕ) : ∀ (ws : List Val) (cur : ℕ) (w : Val), (∀ w ∈ ws, g.ty w = [some 1] ∧ ∃ u : ℤ, r.data w = [u]) →
    pieceAt g n cur ws = some w → w ∈ ws ∧ cur ≤ n ∧ ((ws.map r.data).flatten)[n - cur]? = (r.data w).head? := by
  intro ws
  induction ws with
  | nil => intro cur w _ h; simp [pieceAt] at h
  | cons a ws ih =>
    intro cur w h1 h
    obtain ⟨hty, u, hu⟩ := h1 a (by simp)
    have hss : staticSize (g.ty a) = 1 := by rw [hty]; rfl
    unfold pieceAt at h
    rw [hss] at h
    split at h
    · rename_i hc
      simp only [Option.some.injEq] at h
      subst h
      refine ⟨by simp, hc.1, ?_⟩
      have : n - cur = 0 := by omega
      rw [this]
      simp [hu]
    · have h2 := ih (cur + 1) w (fun w hw => h1 w (by simp [hw])) h
      refine ⟨by simp [h2.1], by omega, ?_⟩
      have : n - cur = (n - (cur + 1)) + 1 := by omega
      rw [this, List.map_cons, List.flatten_cons, hu]
      simp only [List.singleton_append, List.getElem?_cons_succ]
      exact h2.2.2

omit hp in
theorem dimSource_data (v : Val) (e : Dim) (h : dimSource g v = some e) : ∃ n : ℕ, r.data v = [(n : ℤ)] ∧ size g r e = some (n : ℤ) := by
  have key : ∀ x, (match defOp g x with
      | some ⟨.dim axis, some z :: _, _⟩ => some (z, axis)
      | _ => none) = some e → ∃ n : ℕ, r.data x = [(n : ℤ)] ∧ size g r e = some (n : ℤ) := by
    intro x h
    split at h
    · rename_i axis z zs ys hd
      simp only [Option.some.injEq] at h
      subst h
      have hm := defOp_mem hd
      have hrun := hx.runs _ hm.1
      simp only [OpRuns] at hrun
      obtain ⟨z', y, n, h1, h2, h3, h4, h5⟩ := hrun
      simp only [List.cons.injEq, Option.some.injEq] at h1
      obtain ⟨rfl, rfl⟩ := h1
      have hxy : x = y := by have := hm.2; simp only [h2] at this; simpa using this
      subst hxy
      refine ⟨n, h5, ?_⟩
      have := (hw.dimTy _ hm.1 axis rfl).2 z (by simp [Op.opd])
      rw [size_dyn g r (z, axis) this]
      dsimp only
      rw [h3]; rfl
    · simp at h
  unfold dimSource at h
  obtain ⟨n, h1, h2⟩ := key _ h
  refine ⟨n, ?_, h2⟩
  unfold behindSqueeze at h1
  split at h1
  · rename_i x xs ys hd
    have hm := defOp_mem hd
    have hrun := hx.runs _ hm.1
    simp only [OpRuns] at hrun
    obtain ⟨x', y, cs, h3, h4, h5⟩ := hrun
    simp only [List.cons.injEq, Option.some.injEq] at h3
    have hvy : v = y := by have := hm.2; simp only [h4] at this; simpa using this
    rw [hvy, h5, ← h3.1]
    exact h1
  · exact h1

omit hw hp in
theorem constOf_data (v : Val) (c : ℤ) (h : constOf g v = some c) (u : ℤ) (hu : r.data v = [u]) : u = c := by
  unfold constOf at h
  split at h
  · rename_i c' xs ys hd
    simp only [Option.some.injEq] at h
    subst h
    have hm := defOp_mem hd
    have hrun := hx.runs _ hm.1
    simp only [OpRuns] at hrun
    exact hrun v hm.2 u hu
  · simp at h

omit hp in
theorem offPiece_ok (d : Dim) (hin : InSet g d) (w : Val) (u : ℤ) (hu : r.data w = [u]) (hs : size g r d = some u) :
    ∀ l ∈ offPiece g d w, RelOk g r l := by
  intro l hl
  unfold offPiece at hl
  split at hl
  · rename_i a b ys hb
    have hdata : ∃ p q : ℤ, r.data a = [p] ∧ r.data b = [q] ∧ u = p + q := by
      rcases behind_add hb with hd | ⟨z, xs, ys', x, hd, hd2⟩
      · have hm := defOp_mem hd
        have hrun := hx.runs _ hm.1
        simp only [OpRuns] at hrun
        obtain ⟨a', b', y, h1, h2, h3, h4⟩ := hrun
        simp only [List.cons.injEq, Option.some.injEq, and_true] at h1
        obtain ⟨rfl, rfl⟩ := h1
        have hwy : w = y := by have := hm.2; simp only [h2] at this; simpa using this
        subst hwy
        obtain ⟨p, q, h5, h6, h7⟩ := h4 u hu
        exact ⟨p, q, h5, h6, h7⟩
      · have hm := defOp_mem hd
        have hrun := hx.runs _ hm.1
        simp only [OpRuns] at hrun
        obtain ⟨x', s, y, h1, h2, h3, h4, h5, h6⟩ := hrun
        simp only [List.cons.injEq, Option.some.injEq] at h1
        have hwy : w = y := by have := hm.2; simp only [h2] at this; simpa using this
        rw [hwy, h5, ← h1.1] at hu
        have hm := defOp_mem hd2
        have hrun := hx.runs _ hm.1
        simp only [OpRuns] at hrun
        obtain ⟨a', b', y', h1, h2, h3, h4⟩ := hrun
        simp only [List.cons.injEq, Option.some.injEq, and_true] at h1
        obtain ⟨rfl, rfl⟩ := h1
        have hwy : x = y' := by have := hm.2; simp only [h2] at this; simpa using this
        subst hwy
        obtain ⟨p, q, h5, h6, h7⟩ := h4 u hu
        exact ⟨p, q, h5, h6, h7⟩
    obtain ⟨p, q, hpa, hqb, hpq⟩ := hdata
    split at hl
    · rename_i c hc
      simp only [List.mem_map, Option.mem_toList] at hl
      obtain ⟨e, he, rfl⟩ := hl
      obtain ⟨n, h1, h2⟩ := dimSource_data hw hx a e he
      have h3 := constOf_data hx b c hc q hqb
      rw [hpa] at h1
      simp only [List.cons.injEq, and_true] at h1
      refine ⟨hin, ?_⟩
      dsimp only
      rw [h2, hs, hpq, h1, h3]
      rfl
    · split at hl
      · rename_i c hc
        simp only [List.mem_map, Option.mem_toList] at hl
        obtain ⟨e, he, rfl⟩ := hl
        obtain ⟨n, h1, h2⟩ := dimSource_data hw hx b e he
        have h3 := constOf_data hx a c hc p hpa
        rw [hqb] at h1
        simp only [List.cons.injEq, and_true] at h1
        refine ⟨hin, ?_⟩
        dsimp only
        rw [h2, hs, hpq, h1, h3, add_comm]
        rfl
      · simp at hl
  · simp at hl

theorem offExpand_ok (d : Dim) (hin : InSet g d) (o : Op) (hd : defOp g d.1 = some o) (hk : o.kind = .expand) :
    ∀ l ∈ offExpand g d o, RelOk g r l := by
  have hdyn := inSet_def hw hx hp d hin o hd (by rw [hk]; simp) (by rw [hk]; simp)
  have hm := defOp_mem hd
  have hrun := hx.runs o hm.1
  simp only [OpRuns, hk] at hrun
  obtain ⟨x, s, y, ns, h1, h2, h3, h4⟩ := hrun
  have e1 : o.opd 1 = some s := by simp [Op.opd, h1]
  have hyd : d.1 = y := by have := hm.2; rw [h2] at this; simpa using this
  have h5 := hp.expand o hm.1 hk s y e1 h2
  intro l hl
  unfold offExpand at hl
  rw [e1] at hl
  simp only [Option.bind_some] at hl
  split at hl
  · rename_i axis xs' ys hds
    simp only [List.mem_flatMap, Option.mem_toList] at hl
    obtain ⟨w, hwp, hl⟩ := hl
    have hms := defOp_mem hds
    have hrun := hx.runs _ hms.1
    simp only [OpRuns] at hrun
    obtain ⟨xs, y', hne, k1, k2, k, hk1, hax, hall, hsum, hdata⟩ := hrun
    have hsy : s = y' := by have := hms.2; simp only [k2] at this; simpa using this
    subst hsy
    have hv : xs'.filterMap id = xs := by rw [k1]; simp [List.filterMap_map]
    rw [hv] at hwp
    have hpc : ∀ w ∈ xs, g.ty w = [some 1] ∧ ∃ u : ℤ, r.data w = [u] := by
      intro w hwx
      have := hp.pieces o hm.1 hk s w e1 axis xs' ys hds (by rw [k1]; simpa using hwx)
      exact ⟨this.1, data_one hx w this.1 this.2⟩
    have h6 := pieceAt_data d.2 xs 0 w hpc hwp
    have hrank1 : (r.shape s).length = 1 := by
      obtain ⟨x0, hx0⟩ := List.exists_mem_of_ne_nil xs hne
      rw [← (hall x0 hx0).1, ← rank_eq hx, (hpc x0 hx0).1]; rfl
    rw [← hdata hrank1] at h6
    obtain ⟨u, hu⟩ := (hpc w h6.1).2
    refine offPiece_ok hw hx d hin w u hu ?_ l hl
    rw [size_dyn g r d hdyn, hyd]
    have h7 := h6.2.2
    rw [h5, hu, Nat.sub_zero, List.getElem?_map] at h7
    exact h7
  · simp at hl

theorem offGeneral_ok (m : List (List Dim)) (hs : Sound g r m) (d : Dim) (hin : InSet g d) (o : Op)
    (hd : defOp g d.1 = some o) : ∀ l ∈ offGeneral g m d o, RelOk g r l := by
  intro l hl
  unfold offGeneral at hl
  simp only [List.mem_flatMap] at hl
  obtain ⟨v, hv, i, hi, hl⟩ := hl
  split at hl
  · rename_i hsd
    simp only [List.mem_singleton] at hl
    subst hl
    refine ⟨hin, ?_⟩
    dsimp only
    simp only [add_zero, Option.map_id']
    obtain ⟨i', j', hi', hj', hsd⟩ := sameDim_norm hsd
    have n1 := normAxis_some hi'
    have n2 := normAxis_some hj'
    have ei : i' = i := by omega
    have ej : j' = d.2 := by omega
    rw [ei, ej] at hsd
    have hsh := sameDimAt_shape hx.fits hs _ _ _ _ hsd
    have hm := defOp_mem hd
    have hrun := hx.runs o hm.1
    by_cases hdyn : (g.ty d.1)[d.2]? = some none
    · rw [size_dyn g r d hdyn]
      by_cases hvd : v = d.1 ∧ i = d.2
      · obtain ⟨rfl, rfl⟩ := hvd
        rw [size_dyn g r _ hdyn]
      · have hvdyn : (g.ty v)[i]? = some none := by
          unfold sameDimAt at hsd
          rw [if_neg hvd] at hsd
          rw [hdyn] at hsd
          split at hsd
          · simp_all
          · assumption
          · simp at hsd
        rw [size_dyn g r (v, i) hvdyn]
        dsimp only
        rw [hsh]
    · rcases hin with hin | ⟨o', hin, hk⟩
      · rw [hin] at hd; simp at hd
      · rw [hin] at hd
        simp only [Option.some.injEq] at hd
        subst hd
        rcases hk with hk | hk | hk
        · -- DimOp: the sizes compared are static ones
          exfalso
          have hty := (hw.dimTy _ hm.1 d.2 hk).1 d.1 hm.2
          simp only [OpRuns, hk] at hrun
          obtain ⟨x, y, n, h1, h2, h3, h4, h5⟩ := hrun
          have e0 : o'.opd 0 = some x := by simp [Op.opd, h1]
          have hxd := (hw.dimTy _ hm.1 d.2 hk).2 x e0
          have hvx : v = x := by simpa [Op.vals, h1] using hv
          subst hvx
          have hd0 : d.2 = 0 := by
            have := n2.1
            rw [ej, hty] at this
            simpa using this
          unfold sameDimAt at hsd
          split at hsd
          · rename_i hc
            rw [hc.1, hty, hd0] at hxd
            simp at hxd
          · rw [hty, hd0] at hsd
            simp only [List.getElem?_cons_zero] at hsd
            cases ht : (g.ty v)[i]? with
            | none => rw [ht] at hsd; simp at hsd
            | some t =>
              cases t with
              | none => rw [ht] at hsd; simp at hsd
              | some t =>
                rw [ht] at hsd
                simp at hsd
                subst hsd
                rw [hd0] at hk
                exact hp.dimOne _ hm.1 hk v e0 (List.mem_of_getElem? ht)
        · simp only [OpRuns, hk] at hrun
          obtain ⟨x, y, h1, h2, h3⟩ := hrun
          have e0 : o'.opd 0 = some x := by simp [Op.opd, h1]
          have hvx : v = x := by simpa [Op.vals, h1] using hv
          subst hvx
          have hty := hw.castTy _ hm.1 hk v e0 d.1 hm.2
          simp only [size]
          rw [← hty]
          by_cases ht : g.ty d.1 = [some 1]
          · rw [if_pos ht, if_pos ht, hp.cast _ hm.1 hk v e0 d.1 hm.2 ht]
          · rw [if_neg ht, if_neg ht, hsh]
        · exact absurd hk hdyn
  · simp at hl

theorem visitOffsets_ok (m : List (List Dim)) (hs : Sound g r m) (d : Dim) (hin : InSet g d) :
    ∀ l ∈ visitOffsets g m d, RelOk g r l := by
  intro l hl
  unfold visitOffsets at hl
  split at hl
  · simp at hl
  · rename_i o hd
    split at hl
    · simp at hl
    · unfold offOp at hl
      rw [offAdd_none hw hx hp d hin o hd] at hl
      simp only at hl
      split at hl
      · rename_i ls hls
        exact offConcat_ok hw hx hp d hin o hd ls hls l hl
      · split at hl
        · rename_i hk
          exact offExpand_ok hw hx hp d hin o hd hk l hl
        · exact offGeneral_ok hw hx hp m hs d hin o hd l hl

end

/-! ### Propagation -/

theorem mem_firsts : ∀ (l : List (ℤ × Dim)) (p : ℤ × Dim), p ∈ firsts l → p ∈ l := by
  intro l
  induction l with
  | nil => intro p h; simp [firsts] at h
  | cons a l ih =>
    intro p h
    unfold firsts at h
    simp only [List.mem_cons, List.mem_filter] at h
    rcases h with rfl | ⟨h, _⟩
    · simp
    · exact List.mem_cons_of_mem _ (ih p h)

theorem mem_relsOf {rels : List Rel} {d : Dim} {p : ℤ × Dim} (h : p ∈ relsOf rels d) : (⟨d, p.1, p.2⟩ : Rel) ∈ rels := by
  unfold relsOf at h
  simp only [List.mem_map, List.mem_filter, decide_eq_true_eq] at h
  obtain ⟨l, ⟨h1, rfl⟩, rfl⟩ := h
  exact h1

theorem share_ok {g : Graph} {r : Run} : ∀ (m : List (List Dim)) (rels : List Rel), Good g r m → (∀ l ∈ rels, RelOk g r l) →
    ∀ l ∈ share m rels, RelOk g r l := by
  intro m
  induction m with
  | nil => intro rels _ h; exact h
  | cons S m ih =>
    intro rels hm hr
    unfold share
    rw [List.foldl_cons]
    apply ih _ (fun T hT => hm T (by simp [hT]))
    intro l hl
    rw [List.mem_append] at hl
    rcases hl with hl | hl
    · exact hr l hl
    · unfold shareSet at hl
      rw [List.mem_flatMap] at hl
      obtain ⟨d, hd, hl⟩ := hl
      split at hl
      · rw [List.mem_map] at hl
        obtain ⟨p, hp, rfl⟩ := hl
        have h1 := mem_firsts _ _ hp
        rw [List.mem_flatMap] at h1
        obtain ⟨e, he, h1⟩ := h1
        have h2 := hr _ (mem_relsOf h1)
        refine ⟨h2.1, ?_⟩
        dsimp only
        rw [(hm S (by simp)).2 d hd e he]
        exact h2.2
      · simp at hl

theorem newEqs_mem {g : Graph} {m : List (List Dim)} {l : List Dim} {p : Dim × Dim} (h : p ∈ newEqs g m l) :
    p.1 ∈ l ∧ p.2 ∈ l ∧ sameDim g m p.1.1 p.1.2 p.2.1 p.2.2 = false := by
  cases l with
  | nil => simp [newEqs] at h
  | cons t ts =>
    unfold newEqs at h
    simp only [List.mem_map, List.mem_filter] at h
    obtain ⟨e, ⟨h1, h2⟩, rfl⟩ := h
    exact ⟨by simp, by simp [h1], by simpa using h2⟩

/-- Targets that are found to be equal. -/
theorem inferSet_mem {g : Graph} {m : List (List Dim)} {rels : List Rel} {S : List Dim} {p : Dim × Dim}
    (h : p ∈ inferSet g m rels S) : ∃ o : ℤ, ∃ d ∈ S, ∃ e ∈ S, (⟨d, o, p.1⟩ : Rel) ∈ rels ∧ (⟨e, o, p.2⟩ : Rel) ∈ rels ∧
      sameDim g m p.1.1 p.1.2 p.2.1 p.2.2 = false := by
  unfold inferSet at h
  split at h
  · simp at h
  · dsimp only at h
    rw [List.mem_flatMap] at h
    obtain ⟨o, _, h⟩ := h
    obtain ⟨h1, h2, h3⟩ := newEqs_mem h
    simp only [List.mem_map, List.mem_filter, List.mem_flatMap, decide_eq_true_eq] at h1 h2
    obtain ⟨q1, ⟨⟨d, hd, h4⟩, h5⟩, h6⟩ := h1
    obtain ⟨q2, ⟨⟨e, he, h7⟩, h8⟩, h9⟩ := h2
    have k1 := mem_relsOf h4
    have k2 := mem_relsOf h7
    rw [h5, h6] at k1
    rw [h8, h9] at k2
    exact ⟨o, d, hd, e, he, k1, k2, h3⟩

theorem offStep_ok {g : Graph} {r : Run} (ord : List (List Dim) → List (List Dim)) (ho : IsOrder ord) (m : List (List Dim))
    (rels : List Rel) (hm : Good g r m) (hr : ∀ l ∈ rels, RelOk g r l) :
    Good g r (offStep g ord m rels).1 ∧ ∀ l ∈ (offStep g ord m rels).2.1, RelOk g r l := by
  have hm' := good_order ho hm
  have h1 := share_ok (ord m) rels hm' hr
  refine ⟨?_, h1⟩
  unfold offStep
  dsimp only
  split
  · apply good_merge
    intro S hS
    rw [List.mem_append, List.mem_map] at hS
    rcases hS with hS | ⟨p, hp, rfl⟩
    · exact hm S hS
    · rw [List.mem_flatMap] at hp
      obtain ⟨S, hS, hp⟩ := hp
      obtain ⟨o, d, hd, e, he, k1, k2, _⟩ := inferSet_mem hp
      have a1 := h1 _ k1
      have a2 := h1 _ k2
      have heq : size g r p.1 = size g r p.2 := by
        rw [← a1.2, ← a2.2]
        dsimp only
        rw [(hm' S hS).2 d hd e he]
      refine ⟨?_, ?_⟩
      · intro c hc
        unfold eqSet at hc
        rw [mem_ins] at hc
        simp only [List.mem_singleton] at hc
        rcases hc with rfl | rfl
        · exact a1.1
        · exact a2.1
      · have key : ∀ c ∈ eqSet p, size g r c = size g r p.1 := by
          intro c hc
          unfold eqSet at hc
          rw [mem_ins] at hc
          simp only [List.mem_singleton] at hc
          rcases hc with rfl | rfl
          · rfl
          · exact heq.symm
        intro a ha b hb
        rw [key a ha, key b hb]
  · exact hm

theorem offLoop_ok {g : Graph} {r : Run} (ord : List (List Dim) → List (List Dim)) (ho : IsOrder ord) :
    ∀ (n : ℕ) (m : List (List Dim)) (rels : List Rel) (m' : List (List Dim)) (rels' : List Rel), Good g r m →
      (∀ l ∈ rels, RelOk g r l) → offLoop g ord n m rels = some (m', rels') → Good g r m' ∧ ∀ l ∈ rels', RelOk g r l := by
  intro n
  induction n with
  | zero => intro m rels m' rels' _ _ h; simp [offLoop] at h
  | succ n ih =>
    intro m rels m' rels' hm hr h
    have h1 := offStep_ok ord ho m rels hm hr
    unfold offLoop at h
    dsimp only at h
    split at h
    · exact ih _ _ _ _ h1.1 h1.2 h
    · simp only [Option.some.injEq, Prod.mk.injEq] at h
      rw [← h.1, ← h.2]
      exact h1

/-- The result of the analysis is right. -/
theorem analyze_ok {g : Graph} {r : Run} (hw : WellFormed g) (hx : Executes g r) (hp : Plain g r)
    (ord : List (List Dim) → List (List Dim)) (ho : IsOrder ord) (n : ℕ) (m : List (List Dim)) (rels : List Rel)
    (h : analyze g ord n = some (m, rels)) : Good g r m ∧ ∀ l ∈ rels, RelOk g r l := by
  unfold analyze at h
  split at h
  · simp only [Option.some.injEq, Prod.mk.injEq] at h
    rw [← h.1, ← h.2]
    exact ⟨good_init hx, by simp⟩
  · rw [Option.bind_eq_some_iff] at h
    obtain ⟨m1, h1, h2⟩ := h
    have hm1 := good_eqLoop hw hx hp ord ho n _ _ (good_init hx) h1
    refine offLoop_ok ord ho n _ _ _ _ hm1 ?_ h2
    intro l hl
    simp only [List.mem_flatMap] at hl
    obtain ⟨S, hS, d, hd, hl⟩ := hl
    exact visitOffsets_ok hw hx hp m1 hm1.sound d ((good_order ho hm1 S hS).1 d hd) l hl

end Verif.Dims
