import Verif.Lower.SelectModel
import Verif.Lower.ArgLemmas
import Mathlib.Data.List.Count
import Mathlib.Data.List.Sort

/-!
Lemmas about the model of NonZero.
-/

namespace Verif.Lower

section
variable {R : Type*}

theorem addAll_spec (v : ℤ) : ∀ (dims : List ℤ) (ms : List (Mem ℤ)) (xs : Idx), InShape xs dims →
    ms.map (fun m => m.shape) = dims.map (fun d => [d]) →
    ∃ ms', addAll v ms xs = some ms' ∧ ms'.map (fun m => m.shape) = dims.map (fun d => [d]) ∧
      ∀ (a : ℕ) (m : Mem ℤ), ms[a]? = some m → ∃ m', ms'[a]? = some m' ∧
        ∀ j, m'.data [j] = m.data [j] + if xs.getD a 0 = j then v else 0
  | [], ms, xs, h, hm => by
    have : ms = [] := by simpa using hm
    subst this
    exact ⟨[], rfl, rfl, fun a m h => by simp at h⟩
  | d :: ds, [], xs, h, hm => by simp at hm
  | d :: ds, m :: ms, [], h, hm => by cases h
  | d :: ds, m :: ms, x :: xs, h, hm => by
    simp only [List.map_cons, List.cons.injEq] at hm
    obtain ⟨h1, h2⟩ := inShape_cons.1 h
    obtain ⟨ms', e, hs, hd⟩ := addAll_spec v ds ms xs h2 hm.2
    have hin : InShape [x] m.shape := by rw [hm.1]; exact inShape_one h1
    have e2 : m.store [x] (m.data [x] + v) =
        some ⟨m.shape, fun i => if i = [x] then m.data [x] + v else m.data i⟩ := by
      unfold Mem.store; rw [if_pos hin]
    refine ⟨⟨m.shape, fun i => if i = [x] then m.data [x] + v else m.data i⟩ :: ms', ?_, ?_, ?_⟩
    · rw [addAll, mem_load hin, Option.bind_some, e2, Option.bind_some, e]; rfl
    · simp [hs, hm.1]
    · intro a m0 ha
      cases a with
      | zero =>
        simp only [List.getElem?_cons_zero, Option.some.injEq] at ha
        subst ha
        refine ⟨_, rfl, fun j => ?_⟩
        simp only [List.getD_cons_zero, List.cons.injEq, and_true]
        by_cases hj : j = x
        · subst hj; simp
        · have : ¬ x = j := fun e => hj e.symm
          simp [hj, this]
      | succ a =>
        obtain ⟨m', hm', hj⟩ := hd a m0 (by simpa using ha)
        exact ⟨m', by simpa using hm', fun j => by rw [hj j]; simp⟩

theorem countLoop_spec (isZero : R → Bool) (X : Mem R) : ∀ (L : List Idx) (st : ℤ × List (Mem ℤ)),
    (∀ i ∈ L, InShape i X.shape) → st.2.map (fun m => m.shape) = X.shape.map (fun d => [d]) →
    ∃ st', L.foldlM (fun st i => countStep isZero X i st) st = some st' ∧
      st'.2.map (fun m => m.shape) = X.shape.map (fun d => [d]) ∧
      st'.1 = st.1 + (L.countP fun i => !isZero (X.data i)) ∧
      ∀ (a : ℕ) (m : Mem ℤ), st.2[a]? = some m → ∃ m', st'.2[a]? = some m' ∧
        ∀ j, m'.data [j] = m.data [j] + (L.countP fun i => !isZero (X.data i) && decide (i.getD a 0 = j))
  | [], st, _, hs => ⟨st, rfl, hs, by simp, fun a m h => ⟨m, h, fun j => by simp⟩⟩
  | i :: L, st, hL, hs => by
    have hi := hL i (by simp)
    obtain ⟨ms', e, hs', hd⟩ := addAll_spec (if isZero (X.data i) then 0 else 1) X.shape st.2 i hi hs
    obtain ⟨st', e', hs'', hc, hd'⟩ := countLoop_spec isZero X L
      (st.1 + (if isZero (X.data i) then 0 else 1), ms') (fun i h => hL i (by simp [h])) hs'
    refine ⟨st', ?_, hs'', ?_, ?_⟩
    · rw [List.foldlM_cons]
      unfold countStep
      rw [mem_load hi, Option.bind_some]
      simp only [e, Option.map_some, Option.bind_eq_bind, Option.bind_some]
      exact e'
    · rw [hc, List.countP_cons]
      cases isZero (X.data i) <;> simp
      ring
    · intro a m ha
      obtain ⟨m1, h1, g1⟩ := hd a m ha
      obtain ⟨m2, h2, g2⟩ := hd' a m1 h1
      refine ⟨m2, h2, fun j => ?_⟩
      rw [g2 j, g1 j, List.countP_cons]
      generalize i.getD a 0 = q
      cases isZero (X.data i) <;> by_cases hj : q = j <;> simp [hj]
      ring

theorem countNonZero_spec (isZero : R → Bool) (X : Mem R) :
    ∃ st, countNonZero isZero X = some st ∧
      st.1 = ((idxs X.shape).countP fun i => !isZero (X.data i) : ℕ) ∧
      st.2.map (fun m => m.shape) = X.shape.map (fun d => [d]) ∧
      ∀ (a : ℕ) (m : Mem ℤ), st.2[a]? = some m → ∀ j,
        m.data [j] = ((idxs X.shape).countP fun i => !isZero (X.data i) && decide (i.getD a 0 = j) : ℕ) := by
  obtain ⟨st, e, hs, hc, hd⟩ := countLoop_spec isZero X (idxs X.shape) (0, X.shape.map fun d => ⟨[d], fun _ => 0⟩)
    (fun i h => mem_idxs.1 h) (by simp)
  refine ⟨st, e, by rw [hc]; simp, hs, fun a m ha j => ?_⟩
  have hlen : a < X.shape.length := by
    have h1 := congrArg List.length hs
    simp only [List.length_map] at h1
    have := (List.getElem?_eq_some_iff.1 ha).1
    omega
  obtain ⟨m', h1, g⟩ := hd a ⟨[X.shape[a]], fun _ => 0⟩ (by simp [hlen])
  rw [ha] at h1
  rw [Option.some.inj h1, g j]
  simp

/-- The positions in order, each repeated `rs` times. -/
def repeated (rs : ℤ → ℕ) (d : ℤ) : List ℤ := (upto d).flatMap fun j => List.replicate (rs j) j

theorem repeated_succ (rs : ℤ → ℕ) (n : ℕ) :
    repeated rs ((n : ℤ) + 1) = repeated rs n ++ List.replicate (rs n) (n : ℤ) := by
  unfold repeated
  rw [upto_succ, List.flatMap_append]
  simp

theorem findPos_loop (m : Mem ℤ) (d : ℤ) (hm : m.shape = [d]) (rs : ℤ → ℕ) (hrs : ∀ j, m.data [j] = rs j) (i : ℕ) :
    ∀ n : ℕ, (n : ℤ) ≤ d →
      (upto n).foldlM (fun (st : ℤ × ℤ) (j : ℤ) => (m.load [j]).map fun o =>
        (st.1 + o, if (i : ℤ) < st.1 + o ∧ st.2 = -1 then j else st.2)) (0, -1) =
      some (((repeated rs n).length : ℤ), ((repeated rs n)[i]?).getD (-1))
  | 0, _ => by simp [upto, repeated]
  | n + 1, hn => by
    push_cast at hn
    have ih := findPos_loop m d hm rs hrs i n (by omega)
    rw [show ((n + 1 : ℕ) : ℤ) = (n : ℤ) + 1 by push_cast; rfl, upto_succ, List.foldlM_append, ih]
    have hl : m.load [(n : ℤ)] = some (m.data [(n : ℤ)]) := mem_load (by rw [hm]; exact inShape_one (by omega))
    simp only [Option.bind_eq_bind, Option.bind_some, List.foldlM_cons, List.foldlM_nil, hl, Option.map_some,
      Option.pure_def]
    rw [hrs, repeated_succ]
    have hr : ∀ x ∈ repeated rs n, (0 : ℤ) ≤ x := by
      intro x hx
      unfold repeated at hx
      obtain ⟨j, hj, hx⟩ := List.mem_flatMap.1 hx
      rw [List.eq_of_mem_replicate hx]
      exact (mem_upto.1 hj).1
    congr 2
    · simp
    · by_cases h1 : i < (repeated rs n).length
      · rw [List.getElem?_append_left h1, List.getElem?_eq_getElem h1, Option.getD_some]
        have := hr _ (List.getElem_mem h1)
        rw [if_neg (by omega)]
      · rw [List.getElem?_eq_none (l := repeated rs n) (by omega), List.getElem?_append_right (by omega)]
        simp only [Option.getD_none, and_true]
        by_cases h2 : i < (repeated rs n).length + rs n
        · rw [if_pos (by push_cast; omega), List.getElem?_eq_getElem (by simp; omega)]
          simp
        · rw [if_neg (by push_cast; omega), List.getElem?_eq_none (by simp; omega)]
          rfl

theorem findPos_spec (m : Mem ℤ) (d : ℤ) (hd : 0 ≤ d) (hm : m.shape = [d]) (rs : ℤ → ℕ)
    (hrs : ∀ j, m.data [j] = rs j) (i : ℕ) :
    findPos m i = some (((repeated rs d)[i]?).getD (-1)) := by
  unfold findPos
  have h := findPos_loop m d hm rs hrs i d.toNat (by omega)
  rw [show ((d.toNat : ℕ) : ℤ) = d by omega] at h
  rw [hm, List.getD_cons_zero, h]
  rfl

theorem column_spec (i n : ℕ) (rank : ℤ) (rss : ℕ → ℤ → ℕ) : ∀ (dims : List ℤ) (ms : List (Mem ℤ)) (axis : ℕ) (o : Mem ℤ),
    (∀ d ∈ dims, 0 ≤ d) → ms.map (fun m => m.shape) = dims.map (fun d => [d]) →
    (∀ (a : ℕ) (m : Mem ℤ), ms[a]? = some m → ∀ j, m.data [j] = rss (axis + a) j) →
    o.shape = [rank, (n : ℤ)] → i < n → (axis : ℤ) + dims.length ≤ rank →
    ∃ o', nonZeroColumn i ms axis o = some o' ∧ o'.shape = o.shape ∧
      (∀ (a : ℕ) (d : ℤ), dims[a]? = some d →
        o'.data [((axis + a : ℕ) : ℤ), (i : ℤ)] = ((repeated (rss (axis + a)) d)[i]?).getD (-1)) ∧
      ∀ x y : ℤ, y ≠ i ∨ x < axis → o'.data [x, y] = o.data [x, y]
  | [], ms, axis, o, _, hm, _, _, _, _ => by
    have : ms = [] := by simpa using hm
    subst this
    exact ⟨o, rfl, rfl, fun a d h => by simp at h, fun _ _ _ => rfl⟩
  | d :: ds, [], axis, o, _, hm, _, _, _, _ => by simp at hm
  | d :: ds, m :: ms, axis, o, hd, hm, hrs, hs, hi, hr => by
    simp only [List.map_cons, List.cons.injEq] at hm
    simp only [List.length_cons] at hr
    push_cast at hr
    have e := findPos_spec m d (hd d (by simp)) hm.1 (rss axis) (fun j => hrs 0 m rfl j) i
    have hin : InShape [(axis : ℤ), (i : ℤ)] o.shape := by
      rw [hs]; exact inShape_cons.2 ⟨by omega, inShape_one (by omega)⟩
    have e2 : o.store [(axis : ℤ), (i : ℤ)] (((repeated (rss axis) d)[i]?).getD (-1)) =
        some ⟨o.shape, fun x => if x = [(axis : ℤ), (i : ℤ)] then ((repeated (rss axis) d)[i]?).getD (-1) else o.data x⟩ := by
      unfold Mem.store; rw [if_pos hin]
    obtain ⟨o', e3, hs', h1, h2⟩ := column_spec i n rank rss ds ms (axis + 1)
      ⟨o.shape, fun x => if x = [(axis : ℤ), (i : ℤ)] then ((repeated (rss axis) d)[i]?).getD (-1) else o.data x⟩
      (fun x hx => hd x (by simp [hx])) hm.2
      (fun a m' ha j => by
        have := hrs (a + 1) m' (by simpa using ha) j
        rw [show axis + (a + 1) = axis + 1 + a by omega] at this
        exact this) hs hi (by push_cast; omega)
    refine ⟨o', ?_, hs', ?_, ?_⟩
    · rw [nonZeroColumn, e, Option.bind_some, e2, Option.bind_some, e3]
    · intro a d' ha
      cases a with
      | zero =>
        simp only [List.getElem?_cons_zero, Option.some.injEq] at ha
        subst ha
        rw [Nat.add_zero, h2 _ _ (Or.inr (by push_cast; omega))]
        simp
      | succ a =>
        have := h1 a d' (by simpa using ha)
        rw [show axis + 1 + a = axis + (a + 1) by omega] at this
        exact this
    · intro x y hxy
      rw [h2 x y (by push_cast; omega)]
      simp only [List.cons.injEq, and_true]
      rw [if_neg (by omega)]

theorem columns_spec (n : ℕ) (dims : List ℤ) (ms : List (Mem ℤ)) (rss : ℕ → ℤ → ℕ)
    (hd : ∀ d ∈ dims, 0 ≤ d) (hm : ms.map (fun m => m.shape) = dims.map (fun d => [d]))
    (hrs : ∀ (a : ℕ) (m : Mem ℤ), ms[a]? = some m → ∀ j, m.data [j] = rss a j) (o : Mem ℤ)
    (hs : o.shape = [(dims.length : ℤ), (n : ℤ)]) :
    ∀ k : ℕ, k ≤ n → ∃ o', (upto k).foldlM (fun o i => nonZeroColumn i ms 0 o) o = some o' ∧ o'.shape = o.shape ∧
      ∀ (a : ℕ) (d : ℤ) (i : ℕ), dims[a]? = some d → i < k →
        o'.data [(a : ℤ), (i : ℤ)] = ((repeated (rss a) d)[i]?).getD (-1)
  | 0, _ => ⟨o, rfl, rfl, fun a d i _ h => by omega⟩
  | k + 1, hk => by
    obtain ⟨o1, e1, hs1, h1⟩ := columns_spec n dims ms rss hd hm hrs o hs k (by omega)
    obtain ⟨o2, e2, hs2, h2, h3⟩ := column_spec k n dims.length rss dims ms 0 o1 hd hm
      (by simpa using hrs) (by rw [hs1, hs]) (by omega) (by simp)
    refine ⟨o2, ?_, by rw [hs2, hs1], ?_⟩
    · rw [show ((k + 1 : ℕ) : ℤ) = (k : ℤ) + 1 by push_cast; rfl, upto_succ, List.foldlM_append, e1]
      simp only [Option.bind_eq_bind, Option.bind_some, List.foldlM_cons, List.foldlM_nil]
      rw [e2]; rfl
    · intro a d i ha hi
      by_cases hik : i = k
      · subst hik
        have := h2 a d ha
        simpa using this
      · rw [h3 _ _ (Or.inl (by omega))]
        exact h1 a d i ha (by omega)

/-- Number of nonzero elements at position `j` of dimension `a`. -/
def nzCount (isZero : R → Bool) (X : Mem R) (a : ℕ) (j : ℤ) : ℕ :=
  (idxs X.shape).countP fun i => !isZero (X.data i) && decide (i.getD a 0 = j)

/-- The nonzero positions in row-major order. -/
def nzIdx (isZero : R → Bool) (X : Mem R) : List Idx := (idxs X.shape).filter fun i => !isZero (X.data i)

theorem nonZero_spec (isZero : R → Bool) (X : Mem R) (junk : Idx → ℤ) (hd : ∀ d ∈ X.shape, 0 ≤ d) :
    ∃ out, nonZero isZero X junk = some out ∧
      out.shape = [(X.shape.length : ℤ), ((nzIdx isZero X).length : ℤ)] ∧
      ∀ (a : ℕ) (d : ℤ) (i : ℕ), X.shape[a]? = some d → i < (nzIdx isZero X).length →
        out.data [(a : ℤ), (i : ℤ)] = ((repeated (nzCount isZero X a) d)[i]?).getD (-1) := by
  obtain ⟨st, e, hn, hs, hr⟩ := countNonZero_spec isZero X
  have hl : ((idxs X.shape).countP fun i => !isZero (X.data i)) = (nzIdx isZero X).length := by
    rw [nzIdx, List.countP_eq_length_filter]
  rw [hl] at hn
  obtain ⟨o, e2, hs2, ho⟩ := columns_spec (nzIdx isZero X).length X.shape st.2 (nzCount isZero X) hd hs hr
    ⟨[(X.shape.length : ℤ), ((nzIdx isZero X).length : ℤ)], junk⟩ rfl _ (le_refl _)
  refine ⟨o, ?_, hs2, ho⟩
  unfold nonZero
  rw [e, Option.bind_some, hn]
  exact e2

/-! ### What a row holds -/

theorem count_repeated (rs : ℤ → ℕ) (d j : ℤ) :
    (repeated rs d).count j = if 0 ≤ j ∧ j < d then rs j else 0 := by
  have key : ∀ (L : List ℤ), L.Nodup → (L.flatMap fun j => List.replicate (rs j) j).count j =
      if j ∈ L then rs j else 0 := by
    intro L hL
    induction L with
    | nil => simp
    | cons x L ih =>
      rw [List.nodup_cons] at hL
      rw [List.flatMap_cons, List.count_append, ih hL.2, List.count_replicate]
      by_cases hx : x = j
      · subst hx; simp [hL.1]
      · have : ¬ j = x := fun e => hx e.symm
        simp [hx, this]
  unfold repeated
  rw [key _ (nodup_upto d)]
  simp only [mem_upto]

theorem sorted_repeated (rs : ℤ → ℕ) (d : ℤ) : (repeated rs d).Pairwise (· ≤ ·) := by
  have key : ∀ n : ℕ, (repeated rs (n : ℤ)).Pairwise (· ≤ ·) ∧ ∀ x ∈ repeated rs (n : ℤ), x < n := by
    intro n
    induction n with
    | zero => simp [repeated, upto]
    | succ n ih =>
      rw [show ((n + 1 : ℕ) : ℤ) = (n : ℤ) + 1 by push_cast; rfl, repeated_succ]
      refine ⟨?_, ?_⟩
      · rw [List.pairwise_append]
        refine ⟨ih.1, List.pairwise_replicate_of_refl, ?_⟩
        intro a ha b hb
        rw [List.eq_of_mem_replicate hb]
        exact (ih.2 a ha).le
      · intro x hx
        rcases List.mem_append.1 hx with h | h
        · have := ih.2 x h; omega
        · rw [List.eq_of_mem_replicate h]; omega
  rcases le_total 0 d with h | h
  · have := (key d.toNat).1
    rwa [show ((d.toNat : ℕ) : ℤ) = d by omega] at this
  · unfold repeated upto
    rw [show d.toNat = 0 by omega]
    simp

/-- The coordinates of the nonzero elements along one dimension are, up to order, the
repeated positions. -/
theorem perm_repeated (isZero : R → Bool) (X : Mem R) {a : ℕ} {d : ℤ} (ha : X.shape[a]? = some d) :
    ((nzIdx isZero X).map fun i => i.getD a 0).Perm (repeated (nzCount isZero X a) d) := by
  rw [List.perm_iff_count]
  intro j
  rw [count_repeated, List.count_eq_countP, List.countP_map, nzIdx, List.countP_filter]
  have hc : ((idxs X.shape).countP fun i => ((fun x => x == j) ∘ fun i => List.getD i a 0) i && !isZero (X.data i)) =
      nzCount isZero X a j := by
    unfold nzCount
    refine List.countP_congr fun i _ => ?_
    simp only [Function.comp, beq_eq_decide]
    rw [Bool.and_comm]
  rw [hc]
  split
  · rfl
  · rename_i hj
    unfold nzCount
    rw [List.countP_eq_zero]
    intro i hi h
    have hin := mem_idxs.1 hi
    simp only [Bool.and_eq_true, decide_eq_true_eq] at h
    obtain ⟨hlt, hda⟩ := List.getElem?_eq_some_iff.1 ha
    have := (inShape_iff.1 hin).2 a hlt
    rw [h.2, List.getD_eq_getElem?_getD, ha] at this
    exact hj this

end

end Verif.Lower
