import Verif.Dims.OffLemmas
import Mathlib.Data.Finset.Prod
import Mathlib.Data.Finset.Card
import Mathlib.Algebra.Order.BigOperators.Group.List

/-!
# The loops of the analysis end
-/

namespace Verif.Dims

/-! ### A finite set that contains all dimensions -/

/-- Values that can be visited. -/
def opVals (g : Graph) : List Val := g.ops.flatMap Op.vals

/-- What an operation adds to the bound on the axes. -/
def opBound (g : Graph) (o : Op) : ℕ :=
  (o.vals.map fun v => (g.ty v).length).sum + (o.results.map fun v => (g.ty v).length).sum +
    match o.kind with
    | .dim a => a
    | .centerCropPad (some axes) => axes.length
    | _ => 0

/-- A bound on the axes. -/
def axisBound (g : Graph) : ℕ := (g.ops.map (opBound g)).sum + 1

theorem opBound_le {g : Graph} {o : Op} (h : o ∈ g.ops) : opBound g o ≤ axisBound g := by
  have := List.single_le_sum (l := g.ops.map (opBound g)) (by simp) (opBound g o) (List.mem_map_of_mem h)
  unfold axisBound
  omega

theorem rank_le {g : Graph} {o : Op} (h : o ∈ g.ops) {v : Val} (hv : v ∈ o.vals ∨ v ∈ o.results) :
    (g.ty v).length ≤ axisBound g := by
  refine le_trans ?_ (opBound_le h)
  unfold opBound
  rcases hv with hv | hv
  · have := List.single_le_sum (l := o.vals.map fun v => (g.ty v).length) (by simp) _ (List.mem_map_of_mem hv)
    omega
  · have := List.single_le_sum (l := o.results.map fun v => (g.ty v).length) (by simp) _ (List.mem_map_of_mem hv)
    omega

theorem opd_vals {o : Op} {i : ℕ} {x : Val} (h : o.opd i = some x) : x ∈ o.vals := by
  unfold Op.opd at h
  simp only [Op.vals, List.mem_filterMap, id]
  cases h1 : o.operands[i]? with
  | none => rw [h1] at h; simp at h
  | some q => rw [h1] at h; simp at h; exact ⟨q, List.mem_of_getElem? h1, h⟩

theorem insertWhen_fin {g : Graph} {v : Val} {i B : ℕ} {e : Dim} (h : e ∈ insertWhen g v i) (hi : i ≤ B)
    (hB : axisBound g ≤ B) : e.1 = v ∧ e.2 ≤ B ∧ InSet g e := by
  unfold insertWhen at h
  split at h
  · rename_i hd; simp at h; subst h; exact ⟨rfl, hi, Or.inl hd⟩
  · rename_i o hd
    split at h
    · simp at h
    · rename_i axis hk
      simp at h; subst h
      refine ⟨rfl, ?_, Or.inr ⟨o, hd, Or.inl hk⟩⟩
      have := opBound_le (defOp_mem hd).1
      unfold opBound at this
      rw [hk] at this
      dsimp only at this
      dsimp only
      omega
    · rename_i hk; simp at h; subst h; exact ⟨rfl, hi, Or.inr ⟨o, hd, Or.inr (Or.inl hk)⟩⟩
    · split at h
      · rename_i hy; simp at h; subst h; exact ⟨rfl, hi, Or.inr ⟨o, hd, Or.inr (Or.inr hy)⟩⟩
      · simp at h

/-- The pieces of a shape are operands. -/
theorem dimsOf_vals {g : Graph} : ∀ (n : ℕ) (v : Val) (ws : List Val), dimsOf g n v = some ws → v ∈ opVals g → ∀ w ∈ ws, w ∈ opVals g := by
  intro n
  induction n with
  | zero => intro v ws h; simp [dimsOf] at h
  | succ n ih =>
    intro v ws h hv w hw
    unfold dimsOf at h
    split at h
    · simp at h
    · split at h
      · rename_i axis xs ys hd
        rw [Option.map_eq_some_iff] at h
        obtain ⟨wss, h1, rfl⟩ := h
        rw [List.mem_flatten] at hw
        obtain ⟨ws', h2, h3⟩ := hw
        have h4 := mapM_forall₂ h1
        obtain ⟨x, hx, h5⟩ : ∃ x ∈ xs.filterMap id, dimsOf g n x = some ws' := by
          clear h1
          generalize xs.filterMap id = l at h4
          induction h4 with
          | nil => simp at h2
          | cons hab _ ih' =>
            simp only [List.mem_cons] at h2
            rcases h2 with rfl | h2
            · exact ⟨_, by simp, hab⟩
            · obtain ⟨x, hx, h5⟩ := ih' h2
              exact ⟨x, by simp [hx], h5⟩
        refine ih x ws' h5 ?_ w h3
        unfold opVals
        rw [List.mem_flatMap]
        exact ⟨_, (defOp_mem hd).1, hx⟩
      · split at h
        · simp at h; subst h; simp at hw; subst hw; exact hv
        · simp at h

theorem mem_pairs : ∀ (xs : List Val) (p : Val × Val), p ∈ pairs xs → p.1 ∈ xs ∧ p.2 ∈ xs := by
  intro xs
  induction xs with
  | nil => intro p h; simp [pairs] at h
  | cons x xs ih =>
    intro p h
    simp only [pairs, List.mem_append, List.mem_map] at h
    rcases h with ⟨y, hy, rfl⟩ | h
    · simp [hy]
    · have := ih p h; simp [this]

theorem matchStep_mem {g : Graph} {m : List (List Dim)} {x y : Val} {outs : List ℕ} : ∀ (ins : List ℕ) (st : List ℕ × Option ℕ) (i : ℕ),
    (ins.foldl (matchStep g m x y outs) st).2 = some i → st.2 = some i ∨ i ∈ ins := by
  intro ins
  induction ins with
  | nil => intro st i h; exact Or.inl h
  | cons a ins ih =>
    intro st i h
    rw [List.foldl_cons] at h
    rcases ih _ i h with h | h
    · unfold matchStep at h
      split at h
      · exact Or.inl h
      · dsimp only at h
        cases hs : st.2 with
        | none => rw [hs] at h; simp at h; right; simp [h]
        | some k => rw [hs] at h; left; simpa using h
    · right; simp [h]

theorem visit_fin {g : Graph} {m : List (List Dim)} {d e : Dim} {B : ℕ} (hB : axisBound g ≤ B) (hd : d.2 ≤ B)
    (h : e ∈ visit g m d) : e.1 ∈ opVals g ∧ e.2 ≤ B ∧ InSet g e := by
  have one : 1 ≤ axisBound g := by unfold axisBound; omega
  have key : ∀ o ∈ g.ops, ∀ v ∈ o.vals, ∀ i ≤ B, e ∈ insertWhen g v i → e.1 ∈ opVals g ∧ e.2 ≤ B ∧ InSet g e := by
    intro o ho v hv i hi he
    have := insertWhen_fin he hi hB
    refine ⟨?_, this.2⟩
    rw [this.1]
    unfold opVals
    rw [List.mem_flatMap]
    exact ⟨o, ho, hv⟩
  unfold visit at h
  rw [List.mem_append] at h
  rcases h with h | h
  · unfold consuming at h
    rw [List.mem_flatMap] at h
    obtain ⟨o, ho, h⟩ := h
    have ho' : o ∈ g.ops := by
      have := List.mem_of_mem_filter ((List.takeWhile_sublist _).subset ho)
      exact this
    have pair : ∀ a b : Val, a ∈ o.vals → b ∈ o.vals → ∀ i ≤ B, ∀ j ≤ B, e ∈ consumePair g d (a, i) (b, j) →
        e.1 ∈ opVals g ∧ e.2 ≤ B ∧ InSet g e := by
      intro a b ha hb i hi j hj he
      unfold consumePair at he
      split at he
      · exact key o ho' b hb j hj he
      · split at he
        · exact key o ho' a ha i hi he
        · simp at he
    unfold consume at h
    split at h
    · unfold consumeConcat at h
      dsimp only at h
      have h' : e ∈ o.vals.flatMap fun w => if w = d.1 then [] else insertWhen g w d.2 := by
        split at h
        · split at h
          · exact h
          · simp at h
        · split at h
          · exact h
          · simp at h
      rw [List.mem_flatMap] at h'
      obtain ⟨w, hw, h'⟩ := h'
      split at h'
      · simp at h'
      · exact key o ho' w hw _ hd h'
    · split at h
      · rename_i a b ha hb
        refine pair a b (opd_vals ha) (opd_vals hb) _ ?_ _ ?_ h <;> split <;> omega
      · simp at h
    · split at h
      · rename_i a b ha hb
        have ra := rank_le ho' (Or.inl (opd_vals ha))
        have rb := rank_le ho' (Or.inl (opd_vals hb))
        split at h
        · exact pair a b (opd_vals ha) (opd_vals hb) _ (by omega) _ (by omega) h
        · simp at h
      · simp at h
    · split at h
      · rw [List.mem_flatMap] at h
        obtain ⟨c, hc, h⟩ := h
        unfold batchDims at hc
        simp only [List.mem_append, Option.mem_toList, Option.map_eq_some_iff] at hc
        rcases hc with ((⟨x, hx, rfl⟩ | ⟨x, hx, rfl⟩) | ⟨x, hx, rfl⟩) | ⟨x, hx, rfl⟩
        all_goals
          refine key o ho' x (opd_vals hx) _ ?_ h
          try split
          all_goals omega
      · simp at h
    · simp at h
  · unfold fromDef at h
    split at h
    · simp at h
    · rename_i o hdo
      have ho := (defOp_mem hdo).1
      have hres := (defOp_mem hdo).2
      split at h
      · simp at h
      · rename_i axis hk
        simp only [List.mem_flatMap, Option.mem_toList] at h
        obtain ⟨x, hx, h⟩ := h
        refine key o ho x (opd_vals hx) _ ?_ h
        have := opBound_le ho
        unfold opBound at this
        rw [hk] at this
        dsimp only at this
        omega
      · simp only [List.mem_flatMap, Option.mem_toList] at h
        obtain ⟨x, hx, h⟩ := h
        exact key o ho x (opd_vals hx) _ hd h
      · unfold fromOp at h
        simp only [List.mem_append] at h
        rcases h with ((h | h) | h) | h
        · unfold fromHelper at h
          simp only [List.mem_flatMap, List.mem_range] at h
          obtain ⟨v, hv, i, hi, h⟩ := h
          split at h
          · have := rank_le ho (Or.inl hv)
            exact key o ho v hv i (by omega) h
          · simp at h
        · unfold fromShapeInput at h
          split at h
          · simp at h
          · rename_i s i hsi
            have hs : s ∈ o.vals ∧ i ≤ B := by
              unfold shapeInput at hsi
              split at hsi
              · rename_i axes hk
                dsimp only at hsi
                rw [Option.bind_eq_some_iff] at hsi
                obtain ⟨k, hk1, hsi⟩ := hsi
                rw [Option.map_eq_some_iff] at hsi
                obtain ⟨s', hs', hsi⟩ := hsi
                simp only [Prod.mk.injEq] at hsi
                obtain ⟨rfl, rfl⟩ := hsi
                refine ⟨opd_vals hs', ?_⟩
                unfold findAxis at hk1
                rw [Option.map_eq_some_iff] at hk1
                obtain ⟨p, hp, rfl⟩ := hk1
                have hm := List.mem_of_find?_eq_some hp
                have hlt := List.snd_lt_of_mem_zipIdx hm
                have hb := opBound_le ho
                unfold opBound at hb
                rw [hk] at hb
                cases axes with
                | none =>
                  simp only [Option.getD_none, List.length_map, List.length_range] at hlt
                  have := rank_le ho (Or.inr hres)
                  omega
                | some axes =>
                  simp only [Option.getD_some] at hlt
                  dsimp only at hb
                  omega
              · rw [Option.map_eq_some_iff] at hsi
                obtain ⟨s', hs', hsi⟩ := hsi
                simp only [Prod.mk.injEq] at hsi
                obtain ⟨rfl, rfl⟩ := hsi
                exact ⟨opd_vals hs', hd⟩
              · rw [Option.map_eq_some_iff] at hsi
                obtain ⟨s', hs', hsi⟩ := hsi
                simp only [Prod.mk.injEq] at hsi
                obtain ⟨rfl, rfl⟩ := hsi
                exact ⟨opd_vals hs', hd⟩
              · rw [Option.map_eq_some_iff] at hsi
                obtain ⟨s', hs', hsi⟩ := hsi
                simp only [Prod.mk.injEq] at hsi
                obtain ⟨rfl, rfl⟩ := hsi
                exact ⟨opd_vals hs', hd⟩
              · split at hsi
                · rw [Option.map_eq_some_iff] at hsi
                  obtain ⟨s', hs', hsi⟩ := hsi
                  simp only [Prod.mk.injEq] at hsi
                  obtain ⟨rfl, rfl⟩ := hsi
                  exact ⟨opd_vals hs', hd⟩
                · simp at hsi
              · rw [Option.bind_eq_some_iff] at hsi
                obtain ⟨x, _, hsi⟩ := hsi
                split at hsi
                · rw [Option.map_eq_some_iff] at hsi
                  obtain ⟨s', hs', hsi⟩ := hsi
                  simp only [Prod.mk.injEq] at hsi
                  obtain ⟨rfl, rfl⟩ := hsi
                  exact ⟨opd_vals hs', hd⟩
                · simp at hsi
              · simp at hsi
            split at h
            · simp at h
            · rename_i ws hws
              split at h
              · simp at h
              · rename_i w hw
                have hwv : w ∈ opVals g := by
                  unfold concatDims at hws
                  split at hws
                  · refine dimsOf_vals _ _ _ hws ?_ w (List.mem_of_getElem? hw)
                    unfold opVals
                    rw [List.mem_flatMap]
                    exact ⟨o, ho, hs.1⟩
                  · simp at hws
                have := insertWhen_fin h hs.2 hB
                rw [this.1]
                exact ⟨hwv, this.2⟩
        · split at h
          · rw [List.mem_flatMap] at h
            obtain ⟨p, hp, h⟩ := h
            have hp := mem_pairs _ _ hp
            unfold fromPair at h
            dsimp only at h
            split at h
            · split at h
              · refine key o ho p.1 hp.1 _ ?_ h
                have : (g.ty p.1).length ≤ max (g.ty p.1).length (g.ty p.2).length := le_max_left _ _
                omega
              · simp at h
            · simp at h
          · simp at h
        · split at h
          · rename_i z x y ys hk hx hy
            split at h
            · unfold fromReshape at h
              dsimp only at h
              split at h
              · split at h
                · simp at h
                · rename_i i hi
                  split at h
                  · refine key o ho x (opd_vals hx) i ?_ h
                    have hi' : i ∈ dynDims (g.ty x) := by
                      rcases matchStep_mem _ _ _ hi with h1 | h1
                      · simp at h1
                      · exact h1
                    rw [mem_dynDims] at hi'
                    have := (List.getElem?_eq_some_iff.mp hi').1
                    have := rank_le ho (Or.inl (opd_vals hx))
                    omega
                  · simp at h
              · simp at h
            · simp at h
          · simp at h

/-! ### Sets -/

/-- The sets have no common members. -/
def Disj (m : List (List Dim)) : Prop := m.Pairwise fun S T => ∀ d ∈ S, d ∉ T

/-- Two dimensions are in one set. -/
def Together (m : List (List Dim)) (d e : Dim) : Prop := ∃ S ∈ m, d ∈ S ∧ e ∈ S

theorem absorb_len : ∀ (ts : List (List Dim)) (S : List Dim), (absorb S ts).2.length ≤ ts.length ∧
    ((absorb S ts).2.length = ts.length → absorb S ts = (S, ts) ∧ ∀ T ∈ ts, overlapping S T = false) := by
  intro ts
  induction ts with
  | nil => intro S; simp [absorb]
  | cons T ts ih =>
    intro S
    unfold absorb
    split
    · have := (ih (union S T)).1
      simp only [List.length_cons]
      exact ⟨by omega, fun h => by omega⟩
    · rename_i hov
      have h1 := ih S
      simp only [List.length_cons]
      refine ⟨by omega, ?_⟩
      intro h
      have h2 := h1.2 (by omega)
      refine ⟨by rw [h2.1], ?_⟩
      intro T' hT'
      simp only [List.mem_cons] at hT'
      rcases hT' with rfl | hT'
      · simpa using hov
      · exact h2.2 T' hT'

theorem mergePass_len : ∀ (n : ℕ) (m : List (List Dim)), m.length ≤ n → (mergePass n m).length ≤ m.length ∧
    ((mergePass n m).length = m.length → mergePass n m = m ∧ Disj m) := by
  intro n
  induction n with
  | zero =>
    intro m hm
    have : m = [] := List.length_eq_zero_iff.mp (by omega)
    subst this
    simp [mergePass, Disj]
  | succ n ih =>
    intro m hm
    cases m with
    | nil => simp [mergePass, Disj]
    | cons S ts =>
      unfold mergePass
      have h1 := absorb_len ts S
      simp only [List.length_cons] at hm ⊢
      have h2 := ih (absorb S ts).2 (by omega)
      refine ⟨by omega, ?_⟩
      intro h
      have h3 := h1.2 (by omega)
      rw [h3.1] at h2 ⊢
      have h4 := h2.2 (by dsimp only; rw [h3.1] at h; dsimp only at h; omega)
      dsimp only at h4 ⊢
      refine ⟨by rw [h4.1], ?_⟩
      unfold Disj
      rw [List.pairwise_cons]
      refine ⟨?_, h4.2⟩
      intro T hT d hd hdT
      have := h3.2 T hT
      have h5 : overlapping S T = true := (overlapping_iff S T).mpr ⟨d, hd, hdT⟩
      rw [h5] at this
      simp at this

theorem mergeLoop_disj : ∀ (k : ℕ) (m : List (List Dim)), m.length ≤ k → Disj (mergeLoop k m) := by
  intro k
  induction k with
  | zero =>
    intro m hm
    have : m = [] := List.length_eq_zero_iff.mp (by omega)
    subst this
    simp [mergeLoop, Disj]
  | succ k ih =>
    intro m hm
    unfold mergeLoop
    dsimp only
    have h1 := mergePass_len m.length m (le_refl _)
    split
    · exact ih _ (by omega)
    · have h2 := h1.2 (by omega)
      rw [h2.1]
      exact h2.2

theorem mergeSets_disj (m : List (List Dim)) : Disj (mergeSets m) := mergeLoop_disj _ m (le_refl _)

/-- Every set is part of a new one. -/
def Sub (m m' : List (List Dim)) : Prop := ∀ S ∈ m, ∃ T ∈ m', ∀ d ∈ S, d ∈ T

theorem Sub.refl (m : List (List Dim)) : Sub m m := fun S hS => ⟨S, hS, fun _ h => h⟩

theorem Sub.trans {a b c : List (List Dim)} (h1 : Sub a b) (h2 : Sub b c) : Sub a c := by
  intro S hS
  obtain ⟨T, hT, h3⟩ := h1 S hS
  obtain ⟨R, hR, h4⟩ := h2 T hT
  exact ⟨R, hR, fun d hd => h4 d (h3 d hd)⟩

theorem Sub.together {a b : List (List Dim)} (h : Sub a b) {d e : Dim} (ht : Together a d e) : Together b d e := by
  obtain ⟨S, hS, h1, h2⟩ := ht
  obtain ⟨T, hT, h3⟩ := h S hS
  exact ⟨T, hT, h3 d h1, h3 e h2⟩

theorem absorb_sub : ∀ (ts : List (List Dim)) (S : List Dim), Sub (S :: ts) ((absorb S ts).1 :: (absorb S ts).2) ∧
    ∀ d ∈ S, d ∈ (absorb S ts).1 := by
  intro ts
  induction ts with
  | nil => intro S; simp [absorb, Sub.refl]
  | cons T ts ih =>
    intro S
    unfold absorb
    split
    · have h1 := ih (union S T)
      refine ⟨?_, fun d hd => h1.2 d (by rw [mem_union]; exact Or.inl hd)⟩
      intro R hR
      simp only [List.mem_cons] at hR
      rcases hR with rfl | rfl | hR
      · exact ⟨_, by simp, fun d hd => h1.2 d (by rw [mem_union]; exact Or.inl hd)⟩
      · exact ⟨_, by simp, fun d hd => h1.2 d (by rw [mem_union]; exact Or.inr hd)⟩
      · exact h1.1 R (by simp [hR])
    · have h1 := ih S
      refine ⟨?_, h1.2⟩
      intro R hR
      simp only [List.mem_cons] at hR
      rcases hR with rfl | rfl | hR
      · exact ⟨_, by simp, h1.2⟩
      · exact ⟨_, by simp, fun d hd => hd⟩
      · obtain ⟨Q, hQ, h2⟩ := h1.1 R (by simp [hR])
        refine ⟨Q, ?_, h2⟩
        simp only [List.mem_cons] at hQ ⊢
        rcases hQ with hQ | hQ
        · exact Or.inl hQ
        · exact Or.inr (Or.inr hQ)

theorem mergePass_sub : ∀ (n : ℕ) (m : List (List Dim)), Sub m (mergePass n m) := by
  intro n
  induction n with
  | zero => intro m; exact Sub.refl m
  | succ n ih =>
    intro m
    cases m with
    | nil => exact Sub.refl _
    | cons S ts =>
      unfold mergePass
      refine (absorb_sub ts S).1.trans ?_
      intro R hR
      simp only [List.mem_cons] at hR
      rcases hR with rfl | hR
      · exact ⟨_, by simp, fun d hd => hd⟩
      · obtain ⟨T, hT, h⟩ := ih _ R hR
        exact ⟨T, by simp [hT], h⟩

theorem mergeLoop_sub : ∀ (k : ℕ) (m : List (List Dim)), Sub m (mergeLoop k m) := by
  intro k
  induction k with
  | zero => intro m; exact Sub.refl m
  | succ k ih =>
    intro m
    unfold mergeLoop
    dsimp only
    split
    · exact (mergePass_sub _ m).trans (ih _)
    · exact mergePass_sub _ m

theorem mergeSets_sub (m : List (List Dim)) : Sub m (mergeSets m) := mergeLoop_sub _ m

/-- All members are in a set. -/
def Within (U : Finset Dim) (m : List (List Dim)) : Prop := ∀ S ∈ m, ∀ d ∈ S, d ∈ U

theorem mergeSets_within {U : Finset Dim} {m : List (List Dim)} (h : Within U m) : Within U (mergeSets m) := by
  refine mergeSets_pres (P := fun S => ∀ d ∈ S, d ∈ U) ?_ _ h
  intro S T d h1 h2 _ _ e he
  rw [mem_union] at he
  rcases he with he | he
  · exact h1 e he
  · exact h2 e he

theorem order_sub {ord : List (List Dim) → List (List Dim)} (ho : IsOrder ord) (m : List (List Dim)) : Sub m (ord m) := by
  intro S hS
  obtain ⟨T, hT, hp⟩ := order_mem' ho m S hS
  exact ⟨T, hT, fun d hd => hp.mem_iff.mpr hd⟩

theorem order_sub' {ord : List (List Dim) → List (List Dim)} (ho : IsOrder ord) (m : List (List Dim)) : Sub (ord m) m := by
  intro S hS
  obtain ⟨T, hT, hp⟩ := order_mem ho m S hS
  exact ⟨T, hT, fun d hd => hp.mem_iff.mp hd⟩

theorem order_within {ord : List (List Dim) → List (List Dim)} (ho : IsOrder ord) {U : Finset Dim} {m : List (List Dim)}
    (h : Within U m) : Within U (ord m) := by
  intro S hS d hd
  obtain ⟨T, hT, hp⟩ := order_mem ho m S hS
  exact h T hT d (hp.mem_iff.mp hd)

theorem order_disj {ord : List (List Dim) → List (List Dim)} (ho : IsOrder ord) {m : List (List Dim)} (h : Disj m) :
    Disj (ord m) := by
  obtain ⟨m', h1, h2⟩ := ho m
  have h3 : Disj m' := (h1.pairwise_iff (fun {S T} hst d hd hd' => hst d hd' hd)).mpr h
  generalize ord m = l at h2
  clear h1 h
  induction h2 with
  | nil => exact List.Pairwise.nil
  | @cons a b l1 l2 hab hl ih =>
    unfold Disj at h3 ⊢
    rw [List.pairwise_cons] at h3 ⊢
    refine ⟨?_, ih h3.2⟩
    intro T hT d hd hdT
    obtain ⟨T', hT', hp⟩ : ∃ T' ∈ l2, T.Perm T' := by
      clear ih h3
      induction hl with
      | nil => simp at hT
      | cons hxy _ ih' =>
        simp only [List.mem_cons] at hT
        rcases hT with rfl | hT
        · exact ⟨_, by simp, hxy⟩
        · obtain ⟨T', h4, h5⟩ := ih' hT
          exact ⟨T', by simp [h4], h5⟩
    exact h3.1 T' hT' d (hab.mem_iff.mp hd) (hp.mem_iff.mp hdT)

theorem union_len (T : List Dim) : ∀ (S : List Dim), (∀ e ∈ T, e ∈ S) → union S T = S := by
  induction T with
  | nil => intro S _; rfl
  | cons a T ih =>
    intro S h
    unfold union
    rw [List.foldl_cons]
    have : ins S a = S := by unfold ins; rw [if_pos (h a (by simp))]
    rw [this]
    exact ih S (fun e he => h e (by simp [he]))

theorem updateAux_eq (g : Graph) : ∀ (todo done : List (List Dim)), ∃ l : List (List Dim), updateAux g done todo = done ++ l ∧
    List.Forall₂ (fun S S' => ∃ m, S' = updateSet g m S) todo l := by
  intro todo
  induction todo with
  | nil => intro done; exact ⟨[], by simp [updateAux], List.Forall₂.nil⟩
  | cons S todo ih =>
    intro done
    unfold updateAux
    obtain ⟨l, h1, h2⟩ := ih (done ++ [updateSet g (done ++ S :: todo) S])
    exact ⟨updateSet g (done ++ S :: todo) S :: l, by rw [h1]; simp, List.Forall₂.cons ⟨_, rfl⟩ h2⟩

theorem updateAux_forall₂ (g : Graph) (m : List (List Dim)) :
    List.Forall₂ (fun S S' => ∃ m, S' = updateSet g m S) m (updateAux g [] m) := by
  obtain ⟨l, h1, h2⟩ := updateAux_eq g m []
  rw [h1]
  simpa using h2

theorem updateAux_sub (g : Graph) (m : List (List Dim)) : Sub m (updateAux g [] m) := by
  have h := updateAux_forall₂ g m
  intro S hS
  generalize updateAux g [] m = l at h
  induction h with
  | nil => simp at hS
  | cons hab _ ih =>
    simp only [List.mem_cons] at hS
    rcases hS with rfl | hS
    · obtain ⟨m', rfl⟩ := hab
      exact ⟨_, List.mem_cons_self, fun d hd => by unfold updateSet; rw [mem_union]; exact Or.inl hd⟩
    · obtain ⟨T, hT, h1⟩ := ih hS
      exact ⟨T, by simp [hT], h1⟩

/-- If the update changes anything, some set has a new member. -/
theorem update_grows (g : Graph) (m : List (List Dim)) (h : (update g m).2 = true) :
    ∃ S ∈ m, ∃ T ∈ (update g m).1, (∀ d ∈ S, d ∈ T) ∧ ∃ d ∈ S, ∃ e ∈ T, e ∉ S := by
  unfold update at h ⊢
  dsimp only at h ⊢
  simp only [decide_eq_true_eq] at h
  have h1 := updateAux_forall₂ g m
  generalize updateAux g [] m = l at h h1
  induction h1 with
  | nil => simp at h
  | @cons a b l1 l2 hab _ ih =>
    by_cases hc : ∀ e ∈ b, e ∈ a
    · obtain ⟨m', rfl⟩ := hab
      have : updateSet g m' a = a := by
        unfold updateSet at hc ⊢
        apply union_len
        intro e he
        exact hc e (by rw [mem_union]; exact Or.inr he)
      rw [this] at h
      simp only [List.map_cons, List.sum_cons] at h
      obtain ⟨S, hS, T, hT, h2⟩ := ih (by omega)
      exact ⟨S, by simp [hS], T, by simp [hT], h2⟩
    · push Not at hc
      obtain ⟨e, he, hea⟩ := hc
      obtain ⟨m', rfl⟩ := hab
      refine ⟨a, by simp, _, List.mem_cons_self, fun d hd => by unfold updateSet; rw [mem_union]; exact Or.inl hd, ?_⟩
      have he' := he
      unfold updateSet at he'
      rw [mem_union, List.mem_flatMap] at he'
      rcases he' with he' | ⟨d, hd, _⟩
      · exact absurd he' hea
      · exact ⟨d, hd, e, he, hea⟩

theorem update_within (g : Graph) {U : Finset Dim} (hU : ∀ m, ∀ d ∈ U, ∀ e ∈ visit g m d, e ∈ U) {m : List (List Dim)}
    (h : Within U m) : Within U (update g m).1 := by
  unfold update
  dsimp only
  have h1 := updateAux_forall₂ g m
  generalize updateAux g [] m = l at h1
  induction h1 with
  | nil => intro S hS; simp at hS
  | cons hab _ ih =>
    intro S hS
    simp only [List.mem_cons] at hS
    rcases hS with rfl | hS
    · obtain ⟨m', rfl⟩ := hab
      intro d hd
      unfold updateSet at hd
      rw [mem_union, List.mem_flatMap] at hd
      rcases hd with hd | ⟨e, he, hd⟩
      · exact h _ (by simp) d hd
      · exact hU m' e (h _ (by simp) e he) d hd
    · exact ih (fun T hT => h T (by simp [hT])) S hS

open Classical in
/-- Number of pairs that are not in one set. -/
noncomputable def apart (U : Finset Dim) (m : List (List Dim)) : ℕ := ((U ×ˢ U).filter fun p => ¬ Together m p.1 p.2).card

theorem apart_le {U : Finset Dim} {a b : List (List Dim)} (h : Sub a b) : apart U b ≤ apart U a := by
  classical
  unfold apart
  apply Finset.card_le_card
  intro p hp
  simp only [Finset.mem_filter] at hp ⊢
  exact ⟨hp.1, fun ht => hp.2 (h.together ht)⟩

theorem apart_lt {U : Finset Dim} {a b : List (List Dim)} (h : Sub a b) {d e : Dim} (hd : d ∈ U) (he : e ∈ U)
    (h1 : ¬ Together a d e) (h2 : Together b d e) : apart U b < apart U a := by
  classical
  unfold apart
  apply Finset.card_lt_card
  rw [Finset.ssubset_iff_of_subset]
  · refine ⟨(d, e), ?_, ?_⟩
    · simp only [Finset.mem_filter, Finset.mem_product]; exact ⟨⟨hd, he⟩, h1⟩
    · simp only [Finset.mem_filter, not_and, not_not]; exact fun _ => h2
  · intro p hp
    simp only [Finset.mem_filter] at hp ⊢
    exact ⟨hp.1, fun ht => hp.2 (h.together ht)⟩

theorem disj_not_together {m : List (List Dim)} (h : Disj m) {S : List Dim} (hS : S ∈ m) {d e : Dim} (hd : d ∈ S) (he : e ∉ S) :
    ¬ Together m d e := by
  rintro ⟨T, hT, h1, h2⟩
  have hne : S ≠ T := fun hh => he (hh ▸ h2)
  unfold Disj at h
  induction m with
  | nil => simp at hS
  | cons a m ih =>
    rw [List.pairwise_cons] at h
    simp only [List.mem_cons] at hS hT
    rcases hS with rfl | hS
    · rcases hT with rfl | hT
      · exact hne rfl
      · exact h.1 T hT d hd h1
    · rcases hT with rfl | hT
      · exact h.1 S hS d h1 hd
      · exact ih h.2 hS hT

/-- The loop that finds equal dimensions ends. -/
theorem eqLoop_ends (g : Graph) (ord : List (List Dim) → List (List Dim)) (ho : IsOrder ord) (U : Finset Dim)
    (hU : ∀ m, ∀ d ∈ U, ∀ e ∈ visit g m d, e ∈ U) : ∀ (k n : ℕ) (m : List (List Dim)), Disj m → Within U m → apart U m ≤ k → k < n →
      ∃ m', eqLoop g ord n m = some m' ∧ Within U m' := by
  intro k
  induction k with
  | zero =>
    intro n m hd hw hk hn
    obtain ⟨n, rfl⟩ : ∃ n', n = n' + 1 := ⟨n - 1, by omega⟩
    unfold eqLoop
    dsimp only
    have hw' := update_within g hU (order_within ho hw)
    split
    · rename_i hu
      exfalso
      obtain ⟨S, hS, T, hT, hsub, d, hdS, e, heT, heS⟩ := update_grows g _ hu
      have h1 := disj_not_together (order_disj ho hd) hS hdS heS
      have := apart_lt (U := U) (updateAux_sub g (ord m)) (order_within ho hw S hS d hdS) (hw' T hT e heT) h1
        ⟨T, hT, hsub d hdS, heT⟩
      have := apart_le (U := U) (order_sub ho m)
      omega
    · exact ⟨_, rfl, hw'⟩
  | succ k ih =>
    intro n m hd hw hk hn
    obtain ⟨n, rfl⟩ : ∃ n', n = n' + 1 := ⟨n - 1, by omega⟩
    unfold eqLoop
    dsimp only
    have hw' := update_within g hU (order_within ho hw)
    split
    · rename_i hu
      obtain ⟨S, hS, T, hT, hsub, d, hdS, e, heT, heS⟩ := update_grows g _ hu
      have h1 := disj_not_together (order_disj ho hd) hS hdS heS
      have h2 := apart_lt (U := U) (updateAux_sub g (ord m)) (order_within ho hw S hS d hdS) (hw' T hT e heT) h1
        ⟨T, hT, hsub d hdS, heT⟩
      have h3 := apart_le (U := U) (order_sub ho m)
      have h4 := apart_le (U := U) (mergeSets_sub (update g (ord m)).1)
      refine ih n _ (mergeSets_disj _) (mergeSets_within hw') ?_ (by omega)
      have h5 : (update g (ord m)).1 = updateAux g [] (ord m) := rfl
      rw [h5] at h4 ⊢
      omega
    · exact ⟨_, rfl, hw'⟩

theorem init_dyn {g : Graph} {S : List Dim} (hS : S ∈ initSets g) {d : Dim} (hd : d ∈ S) : (g.ty d.1)[d.2]? = some none := by
  unfold initSets at hS
  simp only [List.mem_append] at hS
  rcases hS with (hS | hS) | hS
  · simp only [List.mem_flatMap, List.mem_map] at hS
    obtain ⟨o, _, e, ⟨v, _, he⟩, rfl⟩ := hS
    simp at hd; subst hd
    exact (mem_dynOf he).2
  · simp only [List.mem_map, List.mem_filter] at hS
    obtain ⟨p, ⟨hp, _⟩, rfl⟩ := hS
    simp at hd; subst hd
    exact boundary_dyn (n := p.2) hp
  · unfold namedSets at hS
    simp only [List.mem_map] at hS
    obtain ⟨n, _, rfl⟩ := hS
    rw [mem_union] at hd
    simp only [List.not_mem_nil, false_or, List.mem_map, List.mem_filter] at hd
    obtain ⟨p, ⟨hp, _⟩, rfl⟩ := hd
    exact boundary_dyn (n := p.2) hp

/-- The universe of the dimensions of a function. -/
theorem universe_exists (g : Graph) : ∃ U : Finset Dim, Within U (initSets g) ∧ (∀ m, ∀ d ∈ U, ∀ e ∈ visit g m d, e ∈ U) ∧
    ∀ d ∈ U, InSet g d := by
  classical
  let B := axisBound g + ((initSets g).flatten.map Prod.snd).sum
  let V := (opVals g ++ (initSets g).flatten.map Prod.fst).toFinset
  refine ⟨(V ×ˢ Finset.range (B + 1)).filter (InSet g), ?_, ?_, ?_⟩
  · intro S hS d hd
    have hm : d ∈ (initSets g).flatten := List.mem_flatten.mpr ⟨S, hS, hd⟩
    have := List.single_le_sum (l := (initSets g).flatten.map Prod.snd) (by simp) _ (List.mem_map_of_mem hm)
    simp only [Finset.mem_filter, Finset.mem_product, V, List.mem_toFinset, List.mem_append, Finset.mem_range]
    exact ⟨⟨Or.inr (List.mem_map_of_mem hm), by omega⟩, inSet_dyn (init_dyn hS hd)⟩
  · intro m d hd e he
    simp only [Finset.mem_filter, Finset.mem_product, V, List.mem_toFinset, List.mem_append, Finset.mem_range] at hd ⊢
    have := visit_fin (B := B) (by omega) (by omega) he
    exact ⟨⟨Or.inl this.1, by omega⟩, this.2.2⟩
  · intro d hd
    simp only [Finset.mem_filter] at hd
    exact hd.2

theorem eqLoop_init (g : Graph) (ord : List (List Dim) → List (List Dim)) (ho : IsOrder ord) (U : Finset Dim)
    (h1 : Within U (initSets g)) (h2 : ∀ m, ∀ d ∈ U, ∀ e ∈ visit g m d, e ∈ U) :
    ∃ N : ℕ, ∀ n ≥ N, ∃ m', eqLoop g ord n (initSets g) = some m' ∧ Within U m' := by
  refine ⟨apart U [] + 2, ?_⟩
  intro n hn
  obtain ⟨n, rfl⟩ : ∃ n', n = n' + 1 := ⟨n - 1, by omega⟩
  unfold eqLoop
  dsimp only
  have hw' := update_within g h2 (order_within ho h1)
  split
  · obtain ⟨m', h3, h4⟩ := eqLoop_ends g ord ho U h2 (apart U []) n _ (mergeSets_disj (update g (ord (initSets g))).1)
      (mergeSets_within hw') (apart_le (fun S hS => by simp at hS)) (by omega)
    exact ⟨m', h3, h4⟩
  · exact ⟨_, rfl, hw'⟩

/-! ### Offsets -/

/-- What is needed for the second loop to end: no Cast has a result with a static dimension, and no first dimension is read of a
tensor with a dimension of static size 1. -/
structure NoStatic (g : Graph) : Prop where
  cast : ∀ o ∈ g.ops, o.kind = .cast → ∀ y ∈ o.results, ∀ t ∈ g.ty y, t = none
  dimOne : ∀ o ∈ g.ops, o.kind = .dim 0 → ∀ x ∈ o.vals, some 1 ∉ g.ty x

/-- Targets of relations are dynamic. -/
theorem visitOffsets_dyn {g : Graph} (hw : WellFormed g) (hn : NoStatic g) (m : List (List Dim)) (d : Dim) (hin : InSet g d) (l : Rel)
    (hl : l ∈ visitOffsets g m d) : l.tgt = d ∧ (g.ty d.1)[d.2]? = some none := by
  unfold visitOffsets at hl
  split at hl
  · simp at hl
  · rename_i o hd
    split at hl
    · simp at hl
    · have hm := defOp_mem hd
      have htgt : l.tgt = d := by
        unfold offOp at hl
        split at hl
        · rename_i ls h
          unfold offAdd at h
          split at h
          · split at h
            · simp at h; subst h; simp at hl; rw [hl]
            · split at h
              · simp at h; subst h; simp at hl; rw [hl]
              · simp at h
          · simp at h
        · split at hl
          · rename_i ls h
            unfold offConcat at h
            split at h
            · rename_i axis _
              by_cases hax : (d.2 : ℤ) = (if axis < 0 then axis + (g.ty d.1).length else axis)
              · rw [if_pos hax] at h
                simp only [Option.some.injEq] at h
                subst h
                unfold offConcatAt at hl
                split at hl
                · dsimp only at hl
                  split at hl
                  · simp at hl; rw [hl]
                  · simp at hl
                · simp at hl
              · rw [if_neg hax] at h; simp at h
            · simp at h
          · split at hl
            · unfold offExpand at hl
              split at hl
              · simp only [List.mem_flatMap] at hl
                obtain ⟨w, _, hl⟩ := hl
                unfold offPiece at hl
                split at hl
                · split at hl
                  · simp only [List.mem_map] at hl
                    obtain ⟨e, _, rfl⟩ := hl
                    rfl
                  · split at hl
                    · simp only [List.mem_map] at hl
                      obtain ⟨e, _, rfl⟩ := hl
                      rfl
                    · simp at hl
                · simp at hl
              · simp at hl
            · unfold offGeneral at hl
              simp only [List.mem_flatMap] at hl
              obtain ⟨v, _, i, _, hl⟩ := hl
              split at hl
              · simp at hl; rw [hl]
              · simp at hl
      refine ⟨htgt, ?_⟩
      rcases hin with hin | ⟨o', hin, hk⟩
      · rw [hin] at hd; simp at hd
      rw [hin] at hd
      simp only [Option.some.injEq] at hd
      subst hd
      rcases hk with hk | hk | hk
      · exfalso
        have hty := (hw.dimTy _ hm.1 d.2 hk).1 d.1 hm.2
        unfold offOp at hl
        simp only [offAdd, offConcat, hk] at hl
        unfold offGeneral at hl
        simp only [List.mem_flatMap] at hl
        obtain ⟨v, hv, i, _, hl⟩ := hl
        split at hl
        · rename_i hsd
          obtain ⟨i', j', hi', hj', hsd⟩ := sameDim_norm hsd
          have n1 := normAxis_some hi'
          have n2 := normAxis_some hj'
          have ei : i' = i := by omega
          have ej : j' = d.2 := by omega
          rw [ei, ej] at hsd
          have hd0 : d.2 = 0 := by
            have := n2.1
            rw [ej, hty] at this
            simpa using this
          rw [hd0] at hk
          have hno := hn.dimOne _ hm.1 hk v hv
          unfold sameDimAt at hsd
          split at hsd
          · rename_i hc
            rw [hc.1, hty] at hno
            simp at hno
          · rw [hty, hd0] at hsd
            simp only [List.getElem?_cons_zero] at hsd
            cases ht : (g.ty v)[i]? with
            | none => rw [ht] at hsd; simp at hsd
            | some t =>
              cases t with
              | none => rw [ht] at hsd; simp at hsd
              | some t =>
                rw [ht] at hsd
                simp at hsd
                subst hsd
                exact hno (List.mem_of_getElem? ht)
        · simp at hl
      · unfold offOp at hl
        simp only [offAdd, offConcat, hk] at hl
        unfold offGeneral at hl
        simp only [List.mem_flatMap] at hl
        obtain ⟨v, hv, i, _, hl⟩ := hl
        split at hl
        · rename_i hsd
          obtain ⟨i', j', hi', hj', hsd⟩ := sameDim_norm hsd
          have n2 := normAxis_some hj'
          have ej : j' = d.2 := by omega
          have hlt : d.2 < (g.ty d.1).length := by rw [← ej]; exact n2.1
          rw [List.getElem?_eq_getElem hlt, hn.cast _ hm.1 hk d.1 hm.2 _ (List.getElem_mem hlt)]
        · simp at hl
      · exact hk

open Classical in
/-- Number of dimensions without relations. -/
noncomputable def unrelated (U : Finset Dim) (rels : List Rel) : ℕ := (U.filter fun d => relsOf rels d = []).card

theorem relsOf_append (a b : List Rel) (d : Dim) : relsOf (a ++ b) d = relsOf a d ++ relsOf b d := by
  simp [relsOf]

theorem unrelated_le {U : Finset Dim} {a : List Rel} (x : List Rel) : unrelated U (a ++ x) ≤ unrelated U a := by
  classical
  unfold unrelated
  apply Finset.card_le_card
  intro d hd
  simp only [Finset.mem_filter, relsOf_append, List.append_eq_nil_iff] at hd ⊢
  exact ⟨hd.1, hd.2.1⟩

theorem unrelated_lt {U : Finset Dim} {a : List Rel} (x : List Rel) {l : Rel} (hl : l ∈ x) (hs : l.src ∈ U)
    (hn : relsOf a l.src = []) : unrelated U (a ++ x) < unrelated U a := by
  classical
  unfold unrelated
  apply Finset.card_lt_card
  rw [Finset.ssubset_iff_of_subset]
  · refine ⟨l.src, by simp only [Finset.mem_filter]; exact ⟨hs, hn⟩, ?_⟩
    simp only [Finset.mem_filter, relsOf_append, List.append_eq_nil_iff, not_and]
    intro _ _ h
    simp only [relsOf, List.map_eq_nil_iff, List.filter_eq_nil_iff, decide_eq_true_eq] at h
    exact h l hl rfl
  · intro d hd
    simp only [Finset.mem_filter, relsOf_append, List.append_eq_nil_iff] at hd ⊢
    exact ⟨hd.1, hd.2.1⟩

theorem share_eq : ∀ (m : List (List Dim)) (rels : List Rel), ∃ x : List Rel, share m rels = rels ++ x ∧
    (∀ l ∈ x, ∃ k ∈ rels, l.tgt = k.tgt) ∧ (x ≠ [] → ∃ l ∈ x, (∃ S ∈ m, l.src ∈ S) ∧ relsOf rels l.src = []) := by
  intro m
  induction m with
  | nil => intro rels; exact ⟨[], by simp [share], by simp, by simp⟩
  | cons S m ih =>
    intro rels
    obtain ⟨x, h1, h2, h3⟩ := ih (rels ++ shareSet rels S)
    have hset : ∀ l ∈ shareSet rels S, (l.src ∈ S ∧ relsOf rels l.src = []) ∧ ∃ k ∈ rels, l.tgt = k.tgt := by
      intro l hl
      unfold shareSet at hl
      rw [List.mem_flatMap] at hl
      obtain ⟨d, hd, hl⟩ := hl
      split at hl
      · rename_i hr
        rw [List.mem_map] at hl
        obtain ⟨p, hp, rfl⟩ := hl
        have h4 := mem_firsts _ _ hp
        rw [List.mem_flatMap] at h4
        obtain ⟨e, he, h4⟩ := h4
        exact ⟨⟨hd, hr⟩, _, mem_relsOf h4, rfl⟩
      · simp at hl
    refine ⟨shareSet rels S ++ x, ?_, ?_, ?_⟩
    · unfold share at h1 ⊢
      rw [List.foldl_cons, h1, List.append_assoc]
    · intro l hl
      rw [List.mem_append] at hl
      rcases hl with hl | hl
      · exact (hset l hl).2
      · obtain ⟨k, hk, h4⟩ := h2 l hl
        rw [List.mem_append] at hk
        rcases hk with hk | hk
        · exact ⟨k, hk, h4⟩
        · obtain ⟨k', hk', h5⟩ := (hset k hk).2
          exact ⟨k', hk', h4.trans h5⟩
    · intro hne
      by_cases hs : shareSet rels S = []
      · rw [hs] at hne h3 ⊢
        simp only [List.nil_append, List.append_nil] at hne h3 ⊢
        obtain ⟨l, hl, ⟨T, hT, h4⟩, h5⟩ := h3 hne
        exact ⟨l, hl, ⟨T, by simp [hT], h4⟩, h5⟩
      · obtain ⟨l, hl⟩ := List.exists_mem_of_ne_nil _ hs
        exact ⟨l, by simp [hl], ⟨S, by simp, (hset l hl).1.1⟩, (hset l hl).1.2⟩

theorem sameDim_of_together {g : Graph} {m : List (List Dim)} {d e : Dim} (hd : (g.ty d.1)[d.2]? = some none)
    (he : (g.ty e.1)[e.2]? = some none) (h : Together m d e) : sameDim g m d.1 d.2 e.1 e.2 = true := by
  have l1 := (List.getElem?_eq_some_iff.mp hd).1
  have l2 := (List.getElem?_eq_some_iff.mp he).1
  have n1 : normAxis g d.1 d.2 = some d.2 := by
    simp only [normAxis]; rw [if_neg (Int.not_lt.mpr (Int.natCast_nonneg _)), if_pos (by omega)]; simp
  have n2 : normAxis g e.1 e.2 = some e.2 := by
    simp only [normAxis]; rw [if_neg (Int.not_lt.mpr (Int.natCast_nonneg _)), if_pos (by omega)]; simp
  unfold sameDim
  rw [n1, n2]
  dsimp only
  unfold sameDimAt
  split
  · rfl
  · rw [hd, he]
    dsimp only
    obtain ⟨S, hS, h1, h2⟩ := h
    unfold sameSet
    simp only [Bool.or_eq_true, List.any_eq_true, Bool.and_eq_true, decide_eq_true_eq]
    exact Or.inr ⟨S, hS, h1, h2⟩

/-- The loop that uses the offsets ends. -/
theorem offLoop_ends (g : Graph) (ord : List (List Dim) → List (List Dim)) (ho : IsOrder ord) (U : Finset Dim) :
    ∀ (k n : ℕ) (m : List (List Dim)) (rels : List Rel), Within U m →
      (∀ l ∈ rels, l.tgt ∈ U ∧ (g.ty l.tgt.1)[l.tgt.2]? = some none) → apart U m + unrelated U rels ≤ k → k < n →
      (offLoop g ord n m rels).isSome = true := by
  intro k
  induction k using Nat.strong_induction_on with
  | _ k ih =>
    intro n m rels hw hr hk hn
    obtain ⟨n, rfl⟩ : ∃ n', n = n' + 1 := ⟨n - 1, by omega⟩
    unfold offLoop
    dsimp only
    by_cases hu : (offStep g ord m rels).2.2 = true
    · rw [if_pos hu]
      obtain ⟨x, hx1, hx2, hx3⟩ := share_eq (ord m) rels
      have hr' : ∀ l ∈ share (ord m) rels, l.tgt ∈ U ∧ (g.ty l.tgt.1)[l.tgt.2]? = some none := by
        intro l hl
        rw [hx1, List.mem_append] at hl
        rcases hl with hl | hl
        · exact hr l hl
        · obtain ⟨q, hq, h⟩ := hx2 l hl
          rw [h]; exact hr q hq
      have heqs : ∀ p ∈ (ord m).flatMap (inferSet g m (share (ord m) rels)), p.1 ∈ U ∧ p.2 ∈ U ∧ ¬ Together m p.1 p.2 := by
        intro p hp
        rw [List.mem_flatMap] at hp
        obtain ⟨S, _, hp⟩ := hp
        obtain ⟨o, d, _, e, _, k1, k2, h⟩ := inferSet_mem hp
        refine ⟨(hr' _ k1).1, (hr' _ k2).1, ?_⟩
        intro ht
        rw [sameDim_of_together (hr' _ k1).2 (hr' _ k2).2 ht] at h
        simp at h
      have hm : (offStep g ord m rels).1 =
          mergeSets (m ++ ((ord m).flatMap (inferSet g m (share (ord m) rels))).map eqSet) := by
        unfold offStep at hu ⊢
        dsimp only at hu ⊢
        rw [if_pos hu]
      have hrr : (offStep g ord m rels).2.1 = share (ord m) rels := rfl
      have hsub0 : Sub m (m ++ ((ord m).flatMap (inferSet g m (share (ord m) rels))).map eqSet) :=
        fun S hS => ⟨S, by simp [hS], fun _ h => h⟩
      have hsub := hsub0.trans (mergeSets_sub _)
      rw [hm, hrr]
      have hw' : Within U (mergeSets (m ++ ((ord m).flatMap (inferSet g m (share (ord m) rels))).map eqSet)) := by
        apply mergeSets_within
        intro S hS d hd
        rw [List.mem_append, List.mem_map] at hS
        rcases hS with hS | ⟨p, hp, rfl⟩
        · exact hw S hS d hd
        · unfold eqSet at hd
          rw [mem_ins] at hd
          simp only [List.mem_singleton] at hd
          rcases hd with rfl | rfl
          · exact (heqs p hp).1
          · exact (heqs p hp).2.1
      have hlt : apart U (mergeSets (m ++ ((ord m).flatMap (inferSet g m (share (ord m) rels))).map eqSet)) +
          unrelated U (share (ord m) rels) < apart U m + unrelated U rels := by
        have ha := apart_le (U := U) hsub
        have hb : unrelated U (share (ord m) rels) ≤ unrelated U rels := by rw [hx1]; exact unrelated_le x
        by_cases hx : x = []
        · have hne : (ord m).flatMap (inferSet g m (share (ord m) rels)) ≠ [] := by
            intro h
            unfold offStep at hu
            dsimp only at hu
            rw [h, hx1, hx] at hu
            simp at hu
          obtain ⟨p, hp⟩ := List.exists_mem_of_ne_nil _ hne
          have h1 := heqs p hp
          have : apart U (mergeSets (m ++ ((ord m).flatMap (inferSet g m (share (ord m) rels))).map eqSet)) < apart U m := by
            apply apart_lt hsub h1.1 h1.2.1 h1.2.2
            apply (mergeSets_sub _).together
            refine ⟨eqSet p, by rw [List.mem_append]; exact Or.inr (List.mem_map_of_mem hp), ?_, ?_⟩
            · unfold eqSet; rw [mem_ins]; simp
            · unfold eqSet; rw [mem_ins]; simp
          omega
        · obtain ⟨l, hl, ⟨S, hS, h1⟩, h2⟩ := hx3 hx
          have : unrelated U (share (ord m) rels) < unrelated U rels := by
            rw [hx1]
            exact unrelated_lt x hl (order_within ho hw S hS _ h1) h2
          omega
      exact ih _ (by omega) n _ _ hw' hr' (le_refl _) (by omega)
    · rw [if_neg hu]
      rfl

/-- The analysis ends. -/
theorem analyze_ends (g : Graph) (hw : WellFormed g) (hn : NoStatic g) (ord : List (List Dim) → List (List Dim)) (ho : IsOrder ord) :
    ∃ N : ℕ, ∀ n ≥ N, (analyze g ord n).isSome = true := by
  obtain ⟨U, h1, h2, h3⟩ := universe_exists g
  obtain ⟨N, hN⟩ := eqLoop_init g ord ho U h1 h2
  refine ⟨N + apart U [] + unrelated U [] + 1, ?_⟩
  intro n hge
  unfold analyze
  split
  · rfl
  · obtain ⟨m', h4, h5⟩ := hN n (by omega)
    rw [h4]
    rw [Option.bind_some]
    apply offLoop_ends g ord ho U (apart U [] + unrelated U []) n _ _ h5
    · intro l hl
      simp only [List.mem_flatMap] at hl
      obtain ⟨S, hS, d, hd, hl⟩ := hl
      have hdU := order_within ho h5 S hS d hd
      have := visitOffsets_dyn hw hn m' d (h3 d hdU) l hl
      rw [this.1]
      exact ⟨hdU, this.2⟩
    · have a1 : apart U m' ≤ apart U [] := apart_le (fun S hS => by simp at hS)
      have a2 := unrelated_le (U := U) (a := []) ((ord m').flatMap fun S => S.flatMap (visitOffsets g m'))
      rw [List.nil_append] at a2
      omega
    · omega

/-! ### When it does not end -/

theorem offLoop_stuck (g : Graph) (ord : List (List Dim) → List (List Dim)) (m : List (List Dim)) (rels : List Rel)
    (h : offStep g ord m rels = (m, rels, true)) : ∀ n : ℕ, offLoop g ord n m rels = none := by
  intro n
  induction n with
  | zero => rfl
  | succ n ih =>
    unfold offLoop
    rw [h]
    simpa using ih

theorem eqLoop_mono (g : Graph) (ord : List (List Dim) → List (List Dim)) : ∀ (k n : ℕ) (m a b : List (List Dim)),
    eqLoop g ord k m = some a → eqLoop g ord n m = some b → a = b := by
  intro k
  induction k with
  | zero => intro n m a b h; simp [eqLoop] at h
  | succ k ih =>
    intro n m a b h1 h2
    cases n with
    | zero => simp [eqLoop] at h2
    | succ n =>
      unfold eqLoop at h1 h2
      dsimp only at h1 h2
      split at h1
      · rename_i hu
        rw [if_pos hu] at h2
        exact ih n _ a b h1 h2
      · rename_i hu
        rw [if_neg hu] at h2
        simp only [Option.some.injEq] at h1 h2
        rw [← h1, ← h2]

theorem offLoop_mono (g : Graph) (ord : List (List Dim) → List (List Dim)) : ∀ (k n : ℕ) (m : List (List Dim)) (rels : List Rel)
    (a b : List (List Dim) × List Rel), offLoop g ord k m rels = some a → offLoop g ord n m rels = some b → a = b := by
  intro k
  induction k with
  | zero => intro n m rels a b h; simp [offLoop] at h
  | succ k ih =>
    intro n m rels a b h1 h2
    cases n with
    | zero => simp [offLoop] at h2
    | succ n =>
      unfold offLoop at h1 h2
      dsimp only at h1 h2
      split at h1
      · rename_i hu
        rw [if_pos hu] at h2
        exact ih n _ _ a b h1 h2
      · rename_i hu
        rw [if_neg hu] at h2
        simp only [Option.some.injEq] at h1 h2
        rw [← h1, ← h2]

/-- Rounds of the second loop. -/
def rounds (g : Graph) (ord : List (List Dim) → List (List Dim)) : ℕ → List (List Dim) × List Rel → List (List Dim) × List Rel
  | 0, s => s
  | n + 1, s => rounds g ord n ((offStep g ord s.1 s.2).1, (offStep g ord s.1 s.2).2.1)

/-- All of these rounds change something. -/
def busy (g : Graph) (ord : List (List Dim) → List (List Dim)) : ℕ → List (List Dim) × List Rel → Bool
  | 0, _ => true
  | n + 1, s => (offStep g ord s.1 s.2).2.2 && busy g ord n ((offStep g ord s.1 s.2).1, (offStep g ord s.1 s.2).2.1)

theorem offLoop_rounds (g : Graph) (ord : List (List Dim) → List (List Dim)) : ∀ (k : ℕ) (s : List (List Dim) × List Rel),
    busy g ord k s = true → (∀ n, offLoop g ord n (rounds g ord k s).1 (rounds g ord k s).2 = none) →
    ∀ n, offLoop g ord n s.1 s.2 = none := by
  intro k
  induction k with
  | zero => intro s _ h; exact h
  | succ k ih =>
    intro s hb h n
    cases n with
    | zero => rfl
    | succ n =>
      unfold busy at hb
      rw [Bool.and_eq_true] at hb
      unfold offLoop
      dsimp only
      rw [if_pos hb.1]
      exact ih _ hb.2 h n

/-- A function for which the analysis comes back to the same state does not end. -/
theorem analyze_stuck (g : Graph) (ord : List (List Dim) → List (List Dim)) (k : ℕ) (m : List (List Dim)) (s : List (List Dim) × List Rel)
    (h0 : (g.ops.filter g.target).isEmpty = false) (h1 : eqLoop g ord k (initSets g) = some m)
    (hb : busy g ord k (m, (ord m).flatMap fun S => S.flatMap (visitOffsets g m)) = true)
    (hs : rounds g ord k (m, (ord m).flatMap fun S => S.flatMap (visitOffsets g m)) = s)
    (h : offStep g ord s.1 s.2 = (s.1, s.2, true)) : ∀ n : ℕ, analyze g ord n = none := by
  intro n
  unfold analyze
  rw [h0]
  simp only [Bool.false_eq_true, if_false]
  cases h2 : eqLoop g ord n (initSets g) with
  | none => rfl
  | some m' =>
    have := eqLoop_mono g ord k n _ _ _ h1 h2
    subst this
    rw [Option.bind_some]
    refine offLoop_rounds g ord k _ hb ?_ n
    rw [hs]
    exact offLoop_stuck g ord _ _ h

end Verif.Dims
