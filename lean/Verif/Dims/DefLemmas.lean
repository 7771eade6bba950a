import Verif.Dims.Lemmas

/-!
# Dimensions found in the defining operation
-/

namespace Verif.Dims

theorem mapM_forall₂ {α β : Type*} {f : α → Option β} : ∀ {l : List α} {bs : List β}, l.mapM f = some bs →
    List.Forall₂ (fun a b => f a = some b) l bs := by
  intro l
  induction l with
  | nil => intro bs h; simp at h; subst h; exact .nil
  | cons a l ih =>
    intro bs h
    rw [List.mapM_cons] at h
    cases h1 : f a with
    | none => simp [h1] at h
    | some b =>
      cases h2 : l.mapM f with
      | none => simp [h1, h2] at h
      | some cs =>
        simp [h1, h2] at h
        subst h
        exact .cons h1 (ih h2)

theorem insertWhen_const {g : Graph} {w : Val} {i : ℕ} {e : Dim} (he : e ∈ insertWhen g w i) : constOf g w = none := by
  unfold insertWhen at he
  unfold constOf
  cases hd : defOp g w with
  | none => rfl
  | some o =>
    rw [hd] at he
    rcases o with ⟨k, xs, ys⟩
    cases k <;> first | rfl | (simp at he)

theorem length_one_data {l : List ℤ} (h : l.length = 1) : ∃ u, l = [u] := List.length_eq_one_iff.mp h

section
variable {g : Graph} {r : Run} (hw : WellFormed g) (hx : Executes g r) (hp : Plain g r)
include hw hx hp

omit hw hp in
theorem data_one (w : Val) (h1 : g.ty w = [some 1]) (h2 : g.i64 w = true) : ∃ u : ℤ, r.data w = [u] := by
  have h3 := hx.fits w
  rw [h1] at h3
  have h4 : r.shape w = [1] := by
    generalize r.shape w = sh at h3
    cases h3 with
    | cons h t => cases t; simp at h; subst h; rfl
  have h5 := hx.elems w h2
  rw [h4] at h5
  exact length_one_data (by simpa using h5)

omit hw hp in
/-- The elements of a shape are the elements of its pieces. -/
theorem dimsOf_data : ∀ (n : ℕ) (s : Val) (ws : List Val), dimsOf g n s = some ws →
    r.data s = ws.flatMap r.data ∧ ∀ w ∈ ws, g.ty w = [some 1] ∧ g.i64 w = true ∧ Piece g s w := by
  intro n
  induction n with
  | zero => intro s ws h; simp [dimsOf] at h
  | succ n ih =>
    intro s ws h
    unfold dimsOf at h
    split at h
    · simp at h
    · rename_i hl
      push Not at hl
      split at h
      · rename_i axis xs' ys hd
        rw [Option.map_eq_some_iff] at h
        obtain ⟨wss, h1, h2⟩ := h
        have hrun := hx.runs _ (defOp_mem hd).1
        have hs := (defOp_mem hd).2
        simp only [OpRuns] at hrun
        obtain ⟨xs, y, hne, h3, h4, k, hk1, hax, hall, hsum, hdata⟩ := hrun
        simp only at hs
        rw [h4] at hs
        simp only [List.mem_singleton] at hs
        subst hs
        have h5 : xs'.filterMap id = xs := by rw [h3]; simp [List.filterMap_map]
        rw [h5] at h1
        have hf := mapM_forall₂ h1
        have hd1 : r.data s = (xs.map r.data).flatten := hdata (by rw [← rank_eq hx]; exact hl)
        have hsub : ∀ x ∈ xs, some x ∈ xs' := by intro x hx'; rw [h3]; simpa using hx'
        subst h2
        clear hsum hall hne h3 h5 h1 hdata
        rw [hd1]
        clear hd1
        induction hf with
        | nil => simp
        | @cons a b l1 l2 hab _ ih2 =>
          have h6 := ih2 (fun x hx' => hsub x (List.mem_cons_of_mem _ hx'))
          have h7 := ih _ _ hab
          refine ⟨?_, ?_⟩
          · simp only [List.map_cons, List.flatten_cons, List.flatMap_append]
            rw [h7.1]
            congr 1
            exact h6.1
          · intro w hw'
            simp only [List.flatten_cons, List.mem_append] at hw'
            rcases hw' with hw' | hw'
            · have := h7.2 w hw'
              exact ⟨this.1, this.2.1, .there s a w axis xs' ys hd (hsub a (by simp)) this.2.2⟩
            · exact h6.2 w hw'
      · split at h
        · rename_i hc
          simp only [Option.some.injEq] at h
          subst h
          refine ⟨by simp, ?_⟩
          intro w hw'
          simp only [List.mem_singleton] at hw'
          subst hw'
          exact ⟨hc.1, hc.2, .here w⟩
        · simp at h

omit hw hx hp in
theorem flatMap_one_get : ∀ (ws : List Val) (i : ℕ) (w : Val), (∀ w ∈ ws, ∃ u : ℤ, r.data w = [u]) → ws[i]? = some w →
    (ws.flatMap r.data)[i]? = (r.data w).head? := by
  intro ws
  induction ws with
  | nil => intro i w _ h; simp at h
  | cons a l ih =>
    intro i w h1 h2
    obtain ⟨u, hu⟩ := h1 a (by simp)
    cases i with
    | zero => simp at h2; subst h2; simp [hu]
    | succ i =>
      simp at h2
      simp only [List.flatMap_cons, hu, List.singleton_append, List.getElem?_cons_succ]
      exact ih i w (fun w hw => h1 w (by simp [hw])) h2

omit hw hp in
theorem concatDims_get (s : Val) (ws : List Val) (h : concatDims g s = some ws) (i : ℕ) (w : Val) (hi : ws[i]? = some w) :
    (∃ u : ℤ, r.data w = [u] ∧ (r.data s)[i]? = some u) ∧ g.ty w = [some 1] ∧ Piece g s w := by
  have h1 : dimsOf g (g.ops.length + 1) s = some ws := by
    unfold concatDims at h
    split at h
    · exact h
    · simp at h
  have h2 := dimsOf_data hx _ _ _ h1
  have hmem : w ∈ ws := List.mem_of_getElem? hi
  have h3 := h2.2 w hmem
  obtain ⟨u, hu⟩ := data_one hx w h3.1 h3.2.1
  refine ⟨⟨u, hu, ?_⟩, h3.1, h3.2.2⟩
  rw [h2.1, flatMap_one_get ws i w (fun w' hw' => data_one hx w' (h2.2 w' hw').1 (h2.2 w' hw').2.1) hi, hu]
  rfl

omit hw hx hp in
theorem findAxis_some {y : Val} {axes : List ℤ} {k i : ℕ} (h : findAxis g y axes k = some i) :
    ∃ a : ℤ, axes[i]? = some a ∧ normAxis g y a = some k := by
  unfold findAxis at h
  rw [Option.map_eq_some_iff] at h
  obtain ⟨p, h1, h2⟩ := h
  have h3 := List.mem_of_find?_eq_some h1
  have h4 := List.find?_some h1
  rw [List.mem_zipIdx_iff_getElem?] at h3
  subst h2
  exact ⟨p.1, h3, by simpa using h4⟩

omit hw in
/-- The element of the shape operand is the size of the dimension. -/
theorem shapeInput_elem (o : Op) (ho : o ∈ g.ops) (d : Dim) (hd : d.1 ∈ o.results) (n : ℕ)
    (hn : (r.shape d.1)[d.2]? = some n) (s : Val) (i : ℕ) (h : shapeInput g o d = some (s, i)) :
    (∃ v : ℤ, (r.data s)[i]? = some v) ∧
    ∀ (w : Val) (u : ℤ), Piece g s w → constOf g w = none → r.data w = [u] → (r.data s)[i]? = some u → u = n := by
  have hrun := hx.runs o ho
  unfold shapeInput at h
  unfold OpRuns at hrun
  cases hk : o.kind with
  | centerCropPad axes =>
    simp only [hk] at h hrun
    obtain ⟨x, s', y, h1, h2, h3, h4⟩ := hrun
    rw [h2] at hd
    simp only [List.mem_singleton] at hd
    subst hd
    simp only [Option.bind_eq_some_iff, Option.map_eq_some_iff] at h
    obtain ⟨j, h5, s'', h6, h7⟩ := h
    simp only [Prod.mk.injEq] at h7
    obtain ⟨h7, h8⟩ := h7
    subst h7 h8
    have hs : s'' = s' := by simp [Op.opd, h1] at h6; exact h6.symm
    subst hs
    obtain ⟨a, h9, h10⟩ := findAxis_some h5
    rw [rank_eq hx] at h9
    have h11 := normAxis_some h10
    have h12 := h4 j d.2 n a h9 (by rw [← rank_eq hx]; omega) hn
    refine ⟨⟨_, h12⟩, ?_⟩
    intro w u _ _ _ h13
    rw [h12] at h13
    exact (Option.some.inj h13).symm
  | constantOfShape =>
    simp only [hk] at h hrun
    obtain ⟨s', y, h1, h2, h3⟩ := hrun
    rw [h2] at hd
    simp only [List.mem_singleton] at hd
    subst hd
    have e0 : o.opd 0 = some s' := by simp [Op.opd, h1]
    simp [e0] at h
    obtain ⟨h7, h8⟩ := h
    subst h7 h8
    have : (r.data s')[d.2]? = some (n : ℤ) := by rw [h3, List.getElem?_map, hn]; rfl
    refine ⟨⟨_, this⟩, ?_⟩
    intro w u _ _ _ h13
    rw [this] at h13
    exact (Option.some.inj h13).symm
  | expand =>
    simp only [hk] at h hrun
    obtain ⟨x, s', y, ns, h1, h2, h3, h4⟩ := hrun
    have e0 : o.opd 1 = some s' := by simp [Op.opd, h1]
    have h5 := hp.expand o ho hk s' y e0 h2
    rw [h2] at hd
    simp only [List.mem_singleton] at hd
    subst hd
    simp [e0] at h
    obtain ⟨h7, h8⟩ := h
    subst h7 h8
    have : (r.data s')[d.2]? = some (n : ℤ) := by rw [h5, List.getElem?_map, hn]; rfl
    refine ⟨⟨_, this⟩, ?_⟩
    intro w u _ _ _ h13
    rw [this] at h13
    exact (Option.some.inj h13).symm
  | maxUnpool =>
    simp only [hk] at h hrun
    rw [Option.map_eq_some_iff] at h
    obtain ⟨s', e0, h⟩ := h
    obtain ⟨y, h2, h3⟩ := hrun s' e0
    rw [h2] at hd
    simp only [List.mem_singleton] at hd
    subst hd
    simp only [Prod.mk.injEq] at h
    obtain ⟨h7, h8⟩ := h
    subst h7 h8
    have : (r.data s')[d.2]? = some (n : ℤ) := by rw [h3, List.getElem?_map, hn]; rfl
    refine ⟨⟨_, this⟩, ?_⟩
    intro w u _ _ _ h13
    rw [this] at h13
    exact (Option.some.inj h13).symm
  | reshape z =>
    simp only [hk] at h hrun
    obtain ⟨x, s', y, h1, h2, h3, h4, h5, h6⟩ := hrun
    have e0 : o.opd 1 = some s' := by simp [Op.opd, h1]
    split at h
    · rename_i hz
      subst hz
      rw [h2] at hd
      simp only [List.mem_singleton] at hd
      subst hd
      simp [e0] at h
      obtain ⟨h7, h8⟩ := h
      subst h7 h8
      have hlt : d.2 < (r.data s').length := by
        rw [h4]
        exact (List.getElem?_eq_some_iff.mp hn).1
      refine ⟨⟨_, List.getElem?_eq_getElem hlt⟩, ?_⟩
      intro w u hpc hc hu h13
      have h14 := h6 d.2 n u hn h13
      have h15 := hp.positive o ho hk s' w e0 hpc hc u hu
      rcases h14 with h14 | h14 | h14
      · omega
      · exact h14
      · omega
    · simp at h
  | tile =>
    simp only [hk] at h hrun
    obtain ⟨x, s', y, h1, h2, h3, h4⟩ := hrun
    have e0 : o.opd 0 = some x := by simp [Op.opd, h1]
    have e1 : o.opd 1 = some s' := by simp [Op.opd, h1]
    rw [h2] at hd
    simp only [List.mem_singleton] at hd
    subst hd
    simp only [e0, e1, Option.bind_some] at h
    split at h
    · rename_i hone
      simp only [Option.map_some, Option.some.injEq, Prod.mk.injEq] at h
      obtain ⟨h7, h8⟩ := h
      subst h7 h8
      obtain ⟨t, h9, h10⟩ := h4 d.2 1 n (conforms_static (hx.fits x) _ _ hone) hn
      refine ⟨⟨_, h9⟩, ?_⟩
      intro w u _ _ _ h13
      rw [h9] at h13
      have := Option.some.inj h13
      omega
    · simp at h
  | _ => simp [hk] at h

theorem fromShapeInput_size (o : Op) (ho : o ∈ g.ops) (d : Dim) (hd : d.1 ∈ o.results) (hdyn : (g.ty d.1)[d.2]? = some none)
    (e : Dim) (he : e ∈ fromShapeInput g o d) : size g r e = size g r d ∧ InSet g e := by
  unfold fromShapeInput at he
  split at he
  · simp at he
  · rename_i s i hs
    split at he
    · simp at he
    · rename_i ws hws
      split at he
      · simp at he
      · rename_i w hwi
        obtain ⟨n, hn, _⟩ := conforms_get (hx.fits d.1) d.2 none hdyn
        obtain ⟨⟨u, hu1, hu2⟩, hty, hpc⟩ := concatDims_get hx s ws hws i w hwi
        have h1 := (shapeInput_elem hx hp o ho d hd n hn s i hs).2 w u hpc (insertWhen_const he) hu1 hu2
        have h2 := insertWhen_size r hw _ _ e he
        refine ⟨?_, h2.2.1⟩
        rw [h2.1, size_dyn g r d hdyn, hn]
        simp [size, hty, hu1, h1]

theorem fromHelper_size (o : Op) (d : Dim) (hdyn : (g.ty d.1)[d.2]? = some none)
    (e : Dim) (he : e ∈ fromHelper g o d) : size g r e = size g r d ∧ InSet g e := by
  unfold fromHelper at he
  simp only [List.mem_flatMap] at he
  obtain ⟨v, _, i, _, he⟩ := he
  split at he
  · rename_i hq
    have h1 := hx.helper d (v, i) hq
    have h2 := insertWhen_size r hw _ _ e he
    refine ⟨?_, h2.2.1⟩
    rw [h2.1, size_dyn g r (v, i) h1.1, size_dyn g r d hdyn, h1.2]
  · simp at he

/-! ### Broadcasting -/

omit hw hx hp in
theorem fromEnd_eq (s : List ℕ) (k : ℕ) (h : k < s.length) : fromEnd s k = s[s.length - 1 - k]? := by
  unfold fromEnd
  rw [List.getElem?_reverse h]

omit hw hp in
theorem norm_neg {v : Val} {neg : ℤ} {i : ℕ} (h : normAxis g v neg = some i) (hneg : neg < 0) :
    (-neg - 1).toNat < (r.shape v).length ∧ fromEnd (r.shape v) (-neg - 1).toNat = (r.shape v)[i]? ∧
      (((g.ty v).length : ℤ) + neg).toNat = i ∧ i < (g.ty v).length := by
  have h1 := normAxis_some h
  have h2 := rank_eq hx v
  have h3 : (-neg - 1).toNat < (r.shape v).length := by omega
  refine ⟨h3, ?_, by omega, h1.1⟩
  rw [fromEnd_eq _ _ h3]
  congr 1
  omega

/-- The common part: the size of the result is the size of both operands. -/
theorem pair_broadcast (m : List (List Dim)) (hs : Sound g r m) (d : Dim) (a b : Val)
    (hdyn : (g.ty d.1)[d.2]? = some none) (hmax : d.2 < max (g.ty a).length (g.ty b).length)
    (hsize : ∀ n x : ℕ, (r.shape d.1)[d.2]? = some n →
      ∀ k : ℕ, (k : ℤ) = (max (g.ty a).length (g.ty b).length : ℕ) - d.2 - 1 →
      fromEnd (r.shape a) k = some x → fromEnd (r.shape b) k = some x → n = x)
    (hstat : ∀ k : ℕ, (k : ℤ) = (max (g.ty a).length (g.ty b).length : ℕ) - d.2 - 1 →
      k < (g.ty a).length → k < (g.ty b).length → g.ty a = [some 1] → (g.ty b)[(g.ty b).length - 1 - k]? ≠ some (some 1))
    (e : Dim) (he : e ∈ fromPair g m d (a, b)) : size g r e = size g r d ∧ InSet g e := by
  unfold fromPair at he
  dsimp only at he
  split at he
  · split at he
    · rename_i hsd
      obtain ⟨i, j, hi, hj, hsd⟩ := sameDim_norm hsd
      have hneg : (d.2 : ℤ) - (max (g.ty a).length (g.ty b).length : ℕ) < 0 := by omega
      have ha := norm_neg hx hi hneg
      have hb := norm_neg hx hj hneg
      have h2 := insertWhen_size r hw _ _ e he
      refine ⟨?_, h2.2.1⟩
      rw [h2.1, ha.2.2.1]
      have hsh := sameDimAt_shape hx.fits hs _ _ _ _ hsd
      obtain ⟨n, hn, _⟩ := conforms_get (hx.fits d.1) d.2 none hdyn
      have hix : ∃ x : ℕ, (r.shape a)[i]? = some x := by
        have : i < (r.shape a).length := by rw [← rank_eq hx]; exact ha.2.2.2
        exact ⟨_, List.getElem?_eq_getElem this⟩
      obtain ⟨x, hxa⟩ := hix
      generalize hkk : (-((d.2 : ℤ) - (max (g.ty a).length (g.ty b).length : ℕ)) - 1).toNat = k at ha hb
      have hk : (k : ℤ) = (max (g.ty a).length (g.ty b).length : ℕ) - d.2 - 1 := by omega
      have h3 := hsize n x hn k hk (by rw [ha.2.1, hxa]) (by rw [hb.2.1, ← hsh, hxa])
      rw [size_dyn g r d hdyn, hn, size_shape g r (a, i), hxa, h3]
      intro h1
      dsimp only at h1
      have ha1 := ha.1
      have hb1 := hb.1
      rw [← rank_eq hx] at ha1 hb1
      apply hstat k hk ha1 hb1 h1
      have hj' : (g.ty b).length - 1 - k = j := by
        have := hb.2.2.1
        omega
      rw [hj']
      have hi0 : i = 0 := by have := ha.2.2.2; rw [h1] at this; simpa using this
      subst hi0
      unfold sameDimAt at hsd
      split at hsd
      · rename_i hc
        rw [← hc.1, ← hc.2, h1]; rfl
      · rw [h1] at hsd
        simp only [List.length_cons, List.length_nil, zero_add, Nat.lt_one_iff, List.getElem?_cons_zero] at hsd
        cases hbj : (g.ty b)[j]? with
        | none => rw [hbj] at hsd; simp at hsd
        | some t =>
          cases t with
          | none => rw [hbj] at hsd; simp at hsd
          | some t => rw [hbj] at hsd; simp at hsd; rw [← hsd]
    · simp at he
  · simp at he

omit hw hx hp in
theorem broadcast_two {sa sb so : List ℕ} (h : Broadcasts [sa, sb] so) (k n x : ℕ) (hn : fromEnd so k = some n)
    (ha : fromEnd sa k = some x) (hb : fromEnd sb k = some x) : n = x := by
  obtain ⟨s, hs, h1⟩ := (h.2 k n hn).2
  simp only [List.mem_cons, List.not_mem_nil, or_false] at hs
  rcases hs with rfl | rfl
  · rw [ha] at h1; exact (Option.some.inj h1).symm
  · rw [hb] at h1; exact (Option.some.inj h1).symm

omit hw hx hp in
/-- The rank of the result is the larger of the ranks. -/
theorem broadcast_rank {sa sb so : List ℕ} (h : Broadcasts [sa, sb] so) : so.length = max sa.length sb.length := by
  have h1 := h.1 sa (by simp)
  have h2 := h.1 sb (by simp)
  by_contra hne
  have hlt : max sa.length sb.length < so.length := by omega
  have h3 : fromEnd so (max sa.length sb.length) = some (so[so.length - 1 - max sa.length sb.length]'(by omega)) := by
    rw [fromEnd_eq _ _ hlt]
    exact List.getElem?_eq_getElem _
  obtain ⟨s, hs, h4⟩ := (h.2 _ _ h3).2
  unfold fromEnd at h4
  have h5 := (List.getElem?_eq_some_iff.mp h4).1
  simp only [List.length_reverse] at h5
  simp only [List.mem_cons, List.not_mem_nil, or_false] at hs
  rcases hs with rfl | rfl <;> omega

/-- Broadcasting of two operands. -/
theorem fromPair_broadcast (m : List (List Dim)) (hs : Sound g r m) (o : Op) (ho : o ∈ g.ops)
    (hk : o.kind = .add ∨ o.kind = .nary) (a b y : Val) (h1 : o.operands = [some a, some b]) (h2 : o.results = [y])
    (hb : Broadcasts [r.shape a, r.shape b] (r.shape y)) (i : ℕ) (hdyn : (g.ty y)[i]? = some none)
    (e : Dim) (he : e ∈ fromPair g m (y, i) (a, b)) : size g r e = size g r (y, i) ∧ InSet g e := by
  have hr := broadcast_rank hb
  have hi : i < (r.shape y).length := by
    rw [← rank_eq hx]; exact (List.getElem?_eq_some_iff.mp hdyn).1
  have ra := rank_eq hx a
  have rb := rank_eq hx b
  have ry := rank_eq hx y
  refine pair_broadcast hw hx hp m hs (y, i) a b hdyn (by dsimp only; omega) ?_ ?_ e he
  · intro n x hn k hk' hxa hxb
    dsimp only at hn hk'
    refine broadcast_two hb k n x ?_ hxa hxb
    rw [fromEnd_eq _ _ (by omega), ← hn]
    congr 1
    omega
  · intro k hk' hka hkb hta htb
    dsimp only at hk'
    have h3 := hw.broadcastTy o ho hk y (by simp [h2]) k 1 (by
      intro x hx'
      simp only [Op.vals, h1, List.filterMap_cons, id, List.filterMap_nil, List.mem_cons, List.not_mem_nil, or_false] at hx'
      rcases hx' with rfl | rfl
      · rw [hta] at hka ⊢
        simp only [List.length_cons, List.length_nil, zero_add, Nat.lt_one_iff] at hka
        subst hka; rfl
      · rw [List.getElem?_reverse hkb]; exact htb)
    rw [List.getElem?_reverse (by omega)] at h3
    have : (g.ty y).length - 1 - k = i := by omega
    rw [this, hdyn] at h3
    simp at h3

/-- Broadcasting of a matrix product. -/
theorem fromPair_matmul (m : List (List Dim)) (hs : Sound g r m) (a b y : Val)
    (hb : MatMulShape (r.shape a) (r.shape b) (r.shape y)) (i : ℕ) (hdyn : (g.ty y)[i]? = some none)
    (e : Dim) (he : e ∈ fromPair g m (y, i) (a, b)) : size g r e = size g r (y, i) ∧ InSet g e := by
  have hi : i < (r.shape y).length := by
    rw [← rank_eq hx]; exact (List.getElem?_eq_some_iff.mp hdyn).1
  have ra := rank_eq hx a
  have rb := rank_eq hx b
  have ry := rank_eq hx y
  have nosame : ∀ v : Val, (g.ty v).length = 1 → v = a ∨ v = b → i + 2 ≤ max (g.ty a).length (g.ty b).length → False := by
    intro v hv hab hle
    unfold fromPair at he
    dsimp only at he
    split at he
    · split at he
      · rename_i hsd
        obtain ⟨i', j', hi', hj', _⟩ := sameDim_norm hsd
        have h1 := normAxis_some hi'
        have h2 := normAxis_some hj'
        rcases hab with rfl | rfl <;> omega
      · simp at he
    · simp at he
  rcases hb with ⟨ba, bb, by', mm, k, n, h3, h4, h5, h6⟩ | ⟨bb, k, n, h3, h4, h5⟩ | ⟨ba, mm, k, h3, h4, h5⟩ | ⟨k, h3, h4, h5⟩
  · have hr := broadcast_rank h6
    rw [h3] at ra
    rw [h4] at rb
    rw [h5] at ry hi
    simp only [List.length_append, List.length_cons, List.length_nil] at ra rb ry hi
    refine pair_broadcast hw hx hp m hs (y, i) a b hdyn (by dsimp only; omega) ?_ ?_ e he
    · intro nn x hn kk hk' hxa hxb
      dsimp only at hn hk'
      rw [h3] at hxa
      rw [h4] at hxb
      rw [h5] at hn
      have ey : fromEnd (by' ++ [mm, n]) kk = some nn := by
        rw [fromEnd_eq _ _ (by simp; omega), ← hn]
        congr 1
        simp only [List.length_append, List.length_cons, List.length_nil]
        omega
      unfold fromEnd at hxa hxb ey
      simp only [List.reverse_append, List.reverse_cons, List.reverse_nil, List.nil_append, List.singleton_append,
        List.cons_append] at hxa hxb ey
      rcases kk with _ | _ | kk
      · simp at hxb ey; omega
      · simp at hxa ey; omega
      · simp only [List.getElem?_cons_succ] at hxa hxb ey
        exact broadcast_two h6 kk nn x ey hxa hxb
    · intro k' hk' hka hkb hta htb
      rw [hta] at ra
      simp at ra
  · exfalso
    rw [h3] at ra
    rw [h4] at rb
    rw [h5] at ry hi
    simp only [List.length_append, List.length_cons, List.length_nil] at ra rb ry hi
    exact nosame a ra (Or.inl rfl) (by omega)
  · exfalso
    rw [h3] at ra
    rw [h4] at rb
    rw [h5] at ry hi
    simp only [List.length_append, List.length_cons, List.length_nil] at ra rb ry hi
    exact nosame b rb (Or.inr rfl) (by omega)
  · rw [h5] at hi; simp at hi

theorem fromNary_size (m : List (List Dim)) (hs : Sound g r m) (o : Op) (ho : o ∈ g.ops) (hk : isNary o.kind = true) (d : Dim)
    (hd : d.1 ∈ o.results) (hdyn : (g.ty d.1)[d.2]? = some none) (e : Dim)
    (he : e ∈ (pairs o.vals).flatMap (fromPair g m d)) : size g r e = size g r d ∧ InSet g e := by
  have hrun := hx.runs o ho
  unfold OpRuns at hrun
  have hpair : ∀ a b : Val, o.operands = [some a, some b] → (pairs o.vals) = [(a, b)] := by
    intro a b h
    simp [Op.vals, h, pairs]
  cases hkk : o.kind with
  | add =>
    simp only [hkk] at hrun
    obtain ⟨a, b, y, h1, h2, h3, h4⟩ := hrun
    rw [h2] at hd
    simp only [List.mem_singleton] at hd
    rw [hpair a b h1] at he
    simp only [List.flatMap_cons, List.flatMap_nil, List.append_nil] at he
    obtain ⟨y', i⟩ := d
    simp only at hd
    subst hd
    exact fromPair_broadcast hw hx hp m hs o ho (Or.inl hkk) a b _ h1 h2 h3 i hdyn e he
  | nary =>
    simp only [hkk] at hrun
    obtain ⟨xs, y, h1, h2, h3⟩ := hrun
    have h4 := hp.two o ho hkk
    rw [h1, List.length_map] at h4
    obtain ⟨a, b, hab⟩ := List.length_eq_two.mp h4
    subst hab
    rw [h2] at hd
    simp only [List.mem_singleton] at hd
    rw [hpair a b h1] at he
    simp only [List.flatMap_cons, List.flatMap_nil, List.append_nil] at he
    obtain ⟨y', i⟩ := d
    simp only at hd
    subst hd
    exact fromPair_broadcast hw hx hp m hs o ho (Or.inr hkk) a b _ h1 h2 h3 i hdyn e he
  | matmul integer =>
    cases integer with
    | true => rw [hkk] at hk; simp [isNary] at hk
    | false =>
      simp only [hkk] at hrun
      obtain ⟨a, b, y, cs, h1, h2, h3, h4⟩ := hrun
      have h2' : cs = [] := h2 (by trivial)
      subst h2'
      rw [h3] at hd
      simp only [List.mem_singleton] at hd
      rw [hpair a b h1] at he
      simp only [List.flatMap_cons, List.flatMap_nil, List.append_nil] at he
      obtain ⟨y', i⟩ := d
      simp only at hd
      subst hd
      exact fromPair_matmul hw hx hp m hs a b _ h4 i hdyn e he
  | _ => rw [hkk] at hk; simp [isNary] at hk

end

end Verif.Dims
