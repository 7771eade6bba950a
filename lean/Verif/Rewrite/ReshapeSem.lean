import Verif.Rewrite.SqueezeSem
import Mathlib.Algebra.BigOperators.Ring.List
import Mathlib.Tactic.Ring

/-! # Laws of Reshape -/

namespace Verif.Rewrite

variable {V : Type} [Inhabited V]

/-- What one entry of a Reshape request asks for. -/
def reqOne (d : List ℕ) (az : Bool) (k : ℕ) (s : ℤ) : Option (Option ℕ) :=
  if s = -1 then some none
  else if s = 0 then (if az then some (some 0) else d[k]?.map some)
  else if 0 < s then some (some s.toNat) else none

theorem reqDims_getElem? {d : List ℕ} {az : Bool} : ∀ {k : ℕ} {s : List ℤ} {q : List (Option ℕ)},
    reqDims d az k s = some q ↔ q.length = s.length ∧
      ∀ j x, s[j]? = some x → ∃ y, q[j]? = some y ∧ reqOne d az (k + j) x = some y
  | k, [], q => by
    simp only [reqDims, Option.some.injEq, List.length_nil, List.length_eq_zero_iff]
    constructor
    · rintro rfl; simp
    · rintro ⟨rfl, -⟩; rfl
  | k, s :: ss, q => by
    have e : reqDims d az k (s :: ss) =
        (reqOne d az k s).bind fun x => (reqDims d az (k + 1) ss).map (x :: ·) := rfl
    rw [e]
    simp only [Option.bind_eq_some_iff, Option.map_eq_some_iff]
    constructor
    · rintro ⟨y, hy, qs, hqs, rfl⟩
      obtain ⟨hl, h⟩ := reqDims_getElem?.1 hqs
      refine ⟨by simp [hl], fun j x hx => ?_⟩
      cases j with
      | zero => simp at hx; subst hx; exact ⟨y, by simp, by simpa using hy⟩
      | succ j =>
        obtain ⟨z, hz, hz'⟩ := h j x (by simpa using hx)
        exact ⟨z, by simpa using hz, by rw [← hz']; congr 1; omega⟩
    · rintro ⟨hl, h⟩
      cases q with
      | nil => simp at hl
      | cons y qs =>
        obtain ⟨z, hz, hz'⟩ := h 0 s (by simp)
        simp at hz; subst hz
        refine ⟨y, by simpa using hz', qs, reqDims_getElem?.2 ⟨by simpa using hl, fun j x hx => ?_⟩,
          rfl⟩
        obtain ⟨z, hz, hz'⟩ := h (j + 1) x (by simpa using hx)
        exact ⟨z, by simpa using hz, by rw [← hz']; congr 1; omega⟩

theorem fits_count0 {q : List (Option ℕ)} {d : List ℕ} (h : FitsDims q d) (hc : q.count none = 0)
    (m : ℕ) : d = q.map fun x => x.getD m := by
  unfold FitsDims at h
  induction h with
  | nil => rfl
  | cons hx _ ih =>
    rcases hx with rfl | rfl
    · simp at hc
    · rw [List.map_cons, ← ih (by simpa using hc)]; rfl

theorem fits_count1 {q : List (Option ℕ)} {d : List ℕ} (h : FitsDims q d) (hc : q.count none = 1) :
    ∃ m, d = (q.map fun x => x.getD m) ∧ d.prod = m * (q.map fun x => x.getD 1).prod := by
  unfold FitsDims at h
  induction h with
  | nil => simp at hc
  | @cons x n q d hx ht ih =>
    rcases hx with rfl | rfl
    · rw [List.count_cons] at hc
      have h0 : q.count none = 0 := by simpa using hc
      refine ⟨n, ?_, ?_⟩
      · rw [List.map_cons, ← fits_count0 ht h0 n]; rfl
      · rw [List.map_cons, ← fits_count0 ht h0 1]; simp
    · obtain ⟨m, h1, h2⟩ := ih (by simpa using hc)
      refine ⟨m, ?_, ?_⟩
      · rw [List.map_cons, ← h1]; rfl
      · rw [List.map_cons, List.prod_cons, List.prod_cons, h2]
        simp only [Option.getD_some]
        ring

theorem getD_fits (q : List (Option ℕ)) (m : ℕ) : FitsDims q (q.map fun x => x.getD m) := by
  unfold FitsDims
  rw [List.forall₂_map_right_iff, List.forall₂_same]
  intro x _
  cases x with
  | none => exact .inl rfl
  | some n => exact .inr rfl

theorem prod_getD_ne {q : List (Option ℕ)} :
    (q.map fun x => x.getD 1).prod ≠ 0 ↔ ∀ v, some v ∈ q → v ≠ 0 := by
  rw [Ne, List.prod_eq_zero_iff, List.mem_map]
  constructor
  · intro h v hv h0
    exact h ⟨some v, hv, by simpa using h0⟩
  · rintro h ⟨x, hx, h0⟩
    cases x with
    | none => simp at h0
    | some v => exact h v hx (by simpa using h0)

theorem fillDims_iff {total : ℕ} {q : List (Option ℕ)} {d : List ℕ} (hd : d.prod = total) :
    fillDims total q = some d ↔ FitsDims q d ∧ q.count none ≤ 1 ∧
      (none ∈ q → ∀ v, some v ∈ q → v ≠ 0) := by
  unfold fillDims
  constructor
  · intro h
    split at h
    · rename_i hc
      cases h
      refine ⟨getD_fits _ _, by omega, fun hm => ?_⟩
      exact absurd hc (by have := List.count_pos_iff.2 hm; omega)
    · split at h
      · rename_i hc
        split at h
        · cases h
        · rename_i hne
          cases h
          exact ⟨getD_fits _ _, by omega, fun _ => prod_getD_ne.1 hne⟩
      · cases h
  · rintro ⟨hf, hc, hne⟩
    by_cases h0 : q.count none = 0
    · rw [if_pos h0, ← fits_count0 hf h0 0]
    · have h1 : q.count none = 1 := by omega
      have hne := prod_getD_ne.2 (hne (List.count_pos_iff.1 (by omega)))
      rw [if_neg h0, if_pos h1, if_neg hne]
      obtain ⟨m, e1, e2⟩ := fits_count1 hf h1
      rw [← hd, e2, Nat.mul_div_cancel _ (Nat.pos_of_ne_zero hne), ← e1]

/-- A valid Reshape, without computing the open extent. -/
theorem reshape_some {x y : Tensor V} {az : Bool} {s : List ℤ} :
    reshape x az s = some y ↔ x.retag y.shape = some y ∧ ∃ q, reqDims x.shape az 0 s = some q ∧
      FitsDims q y.shape ∧ q.count none ≤ 1 ∧ (none ∈ q → ∀ v, some v ∈ q → v ≠ 0) := by
  unfold reshape
  simp only [Option.bind_eq_some_iff]
  constructor
  · rintro ⟨q, hq, d, hd, hr⟩
    have hs := retag_shape hr
    have hp := retag_prod hr
    subst hs
    exact ⟨hr, q, hq, (fillDims_iff hp.symm).1 hd⟩
  · rintro ⟨hr, q, hq, h⟩
    exact ⟨q, hq, y.shape, (fillDims_iff (retag_prod hr).symm).2 h, hr⟩

theorem count_le_one {α : Type} [BEq α] [LawfulBEq α] {a : α} : ∀ {l : List α},
    (∀ i j : ℕ, l[i]? = some a → l[j]? = some a → i = j) ↔ l.count a ≤ 1
  | [] => by simp
  | b :: l => by
    constructor
    · intro h
      by_cases hb : b = a
      · subst hb
        rw [List.count_cons_self]
        have : l.count b = 0 := by
          rw [List.count_eq_zero]
          intro hm
          obtain ⟨j, hj⟩ := List.getElem?_of_mem hm
          have := h 0 (j + 1) (by simp) (by simpa using hj)
          omega
        omega
      · rw [List.count_cons_of_ne hb]
        refine count_le_one.1 fun i j hi hj => ?_
        have := h (i + 1) (j + 1) (by simpa using hi) (by simpa using hj)
        omega
    · intro h i j hi hj
      by_cases hb : b = a
      · subst hb
        rw [List.count_cons_self] at h
        have h0 : b ∉ l := by rw [← List.count_eq_zero]; omega
        cases i with
        | zero =>
          cases j with
          | zero => rfl
          | succ j => exact absurd (List.mem_of_getElem? (by simpa using hj)) h0
        | succ i => exact absurd (List.mem_of_getElem? (by simpa using hi)) h0
      · rw [List.count_cons_of_ne hb] at h
        cases i with
        | zero => simp at hi; exact absurd hi hb
        | succ i =>
          cases j with
          | zero => simp at hj; exact absurd hj hb
          | succ j => rw [count_le_one.2 h i j (by simpa using hi) (by simpa using hj)]

theorem fits_get {q : List (Option ℕ)} {d : List ℕ} (h : FitsDims q d) {k v : ℕ}
    (hk : q[k]? = some (some v)) : d[k]? = some v := by
  obtain ⟨b, hb, hr⟩ := forall₂_getElem? h hk
  rcases hr with hr | hr
  · cases hr
  · cases hr; exact hb

theorem fits_of_get {q : List (Option ℕ)} {d : List ℕ} (hl : q.length = d.length)
    (h : ∀ (k v : ℕ), q[k]? = some (some v) → d[k]? = some v) : FitsDims q d := by
  unfold FitsDims
  rw [List.forall₂_iff_get]
  refine ⟨hl, fun k h1 h2 => ?_⟩
  simp only [List.get_eq_getElem]
  cases hq : q[k] with
  | none => exact .inl rfl
  | some v =>
    have := h k v (by rw [List.getElem?_eq_getElem h1, hq])
    rw [List.getElem?_eq_getElem h2] at this
    exact .inr (congrArg some (Option.some.inj this).symm)

/-- The request that two requests in a row amount to: where the second one copies, the first one decides. -/
def fuseReq : List ℤ → List ℤ → List ℤ
  | _, [] => []
  | [], b :: s2 => b :: fuseReq [] s2
  | a :: s1, b :: s2 => (if b = 0 then a else b) :: fuseReq s1 s2

theorem fuseReq_get : ∀ {s1 s2 : List ℤ} {k : ℕ} {b : ℤ}, s2[k]? = some b →
    (fuseReq s1 s2)[k]? = some (if b = 0 then (s1[k]?).getD b else b)
  | _, [], _, _, h => by simp at h
  | [], c :: s2, 0, b, h => by simp at h; subst h; simp [fuseReq]
  | [], c :: s2, k + 1, b, h => by
    have := fuseReq_get (s1 := []) (s2 := s2) (k := k) (by simpa using h)
    simpa [fuseReq] using this
  | a :: s1, c :: s2, 0, b, h => by simp at h; subst h; simp [fuseReq]
  | a :: s1, c :: s2, k + 1, b, h => by
    have := fuseReq_get (s1 := s1) (s2 := s2) (k := k) (by simpa using h)
    simpa [fuseReq] using this

theorem fuseReq_length : ∀ (s1 s2 : List ℤ), (fuseReq s1 s2).length = s2.length
  | _, [] => by simp [fuseReq]
  | [], c :: s2 => by simp [fuseReq, fuseReq_length [] s2]
  | a :: s1, c :: s2 => by simp [fuseReq, fuseReq_length s1 s2]

theorem reqOne_none {d : List ℕ} {az : Bool} {k : ℕ} {s : ℤ} (h : reqOne d az k s = some none) :
    s = -1 := by
  unfold reqOne at h
  split at h
  · assumption
  · split at h
    · split at h
      · simp at h
      · simp at h
    · split at h <;> simp at h

/-- Two Reshapes in a row amount to one. -/
theorem reshape_reshape {x y z : Tensor V} {s1 s2 : List ℤ} (hy : reshape x false s1 = some y)
    (hz : reshape y false s2 = some z) (hm : (fuseReq s1 s2).count (-1) ≤ 1) :
    reshape x false (fuseReq s1 s2) = some z := by
  obtain ⟨r1, q1, g1, f1, c1, n1⟩ := reshape_some.1 hy
  obtain ⟨r2, q2, g2, f2, c2, n2⟩ := reshape_some.1 hz
  rw [reqDims_getElem?] at g1 g2
  have hl1 : y.shape.length = s1.length := by rw [← g1.1]; exact f1.length_eq.symm
  have hl2 : z.shape.length = s2.length := by rw [← g2.1]; exact f2.length_eq.symm
  rw [retag_retag r1] at r2
  -- every entry of the fused request is satisfied by the shape of the result
  have key : ∀ k b, (fuseReq s1 s2)[k]? = some b → ∃ c, reqOne x.shape false k b = some c ∧
      (∀ v, c = some v → z.shape[k]? = some v) := by
    intro k b hb
    have hk : k < s2.length := by
      have := (List.getElem?_eq_some_iff.1 hb).1
      rwa [fuseReq_length] at this
    have hs2 := List.getElem?_eq_getElem hk
    obtain ⟨c2', hc2, ho2⟩ := g2.2 k _ hs2
    rw [fuseReq_get hs2] at hb
    have hb := Option.some.inj hb
    by_cases h0 : s2[k] = 0
    · -- copied from the first shape
      rw [if_pos h0] at hb
      rw [h0] at ho2
      have hoo : (y.shape[k]?).map some = some c2' := by
        have : reqOne y.shape false (0 + k) 0 = (y.shape[0 + k]?).map some := by simp [reqOne]
        rw [this, Nat.zero_add] at ho2
        exact ho2
      rw [Option.map_eq_some_iff] at hoo
      obtain ⟨w, hw, rfl⟩ := hoo
      have hk1 : k < s1.length := by
        have := (List.getElem?_eq_some_iff.1 hw).1
        omega
      have hs1 := List.getElem?_eq_getElem hk1
      rw [hs1, Option.getD_some] at hb
      subst hb
      obtain ⟨c1', hc1, ho1⟩ := g1.2 k _ hs1
      rw [Nat.zero_add] at ho1
      refine ⟨c1', ho1, fun v hv => ?_⟩
      subst hv
      have := fits_get f1 hc1
      rw [this] at hw
      cases hw
      exact fits_get f2 hc2
    · rw [if_neg h0] at hb
      subst hb
      rw [Nat.zero_add] at ho2
      refine ⟨c2', ?_, fun v hv => ?_⟩
      · unfold reqOne at ho2 ⊢
        simp only [h0, if_false] at ho2 ⊢
        exact ho2
      · subst hv; exact fits_get f2 hc2
  -- the fused request
  obtain ⟨q, hq⟩ : ∃ q, reqDims x.shape false 0 (fuseReq s1 s2) = some q := by
    have : ∀ (k0 : ℕ) (l : List ℤ), (∀ k b, l[k]? = some b → ∃ c, reqOne x.shape false (k0 + k) b = some c) →
        ∃ q, reqDims x.shape false k0 l = some q := by
      intro k0 l
      induction l generalizing k0 with
      | nil => intro _; exact ⟨[], rfl⟩
      | cons b l ih =>
        intro h
        obtain ⟨c, hc⟩ := h 0 b (by simp)
        obtain ⟨q, hq⟩ := ih (k0 + 1) (fun k b hb => by
          obtain ⟨c, hc⟩ := h (k + 1) b (by simpa using hb)
          exact ⟨c, by rw [← hc]; congr 1; omega⟩)
        refine ⟨c :: q, ?_⟩
        have e : reqDims x.shape false k0 (b :: l) =
          (reqOne x.shape false k0 b).bind fun x' => (reqDims x.shape false (k0 + 1) l).map (x' :: ·) := rfl
        rw [e, hq]
        rw [Nat.add_zero] at hc
        rw [hc]; rfl
    exact this 0 _ fun k b hb => by
      obtain ⟨c, hc, -⟩ := key k b hb
      exact ⟨c, by rw [Nat.zero_add]; exact hc⟩
  have hq' := reqDims_getElem?.1 hq
  have hql : q.length = z.shape.length := by rw [hq'.1, fuseReq_length, hl2]
  -- entries of q
  have qent : ∀ (k : ℕ) c, q[k]? = some c → ∃ b, (fuseReq s1 s2)[k]? = some b ∧
      reqOne x.shape false k b = some c := by
    intro k c hc
    have hk := (List.getElem?_eq_some_iff.1 hc).1
    have hk' : k < (fuseReq s1 s2).length := by rw [← hq'.1]; exact hk
    obtain ⟨c', h1, h2⟩ := hq'.2 k _ (List.getElem?_eq_getElem hk')
    rw [hc] at h1; cases h1
    rw [Nat.zero_add] at h2
    exact ⟨_, List.getElem?_eq_getElem hk', h2⟩
  have qsome : ∀ (k v : ℕ), q[k]? = some (some v) → z.shape[k]? = some v := by
    intro k v hv
    obtain ⟨b, hb, ho⟩ := qent k _ hv
    obtain ⟨c, hc, hcv⟩ := key k b hb
    rw [ho] at hc; cases hc
    exact hcv v rfl
  have qnone : ∀ k : ℕ, q[k]? = some none → (fuseReq s1 s2)[k]? = some (-1) := by
    intro k hk
    obtain ⟨b, hb, ho⟩ := qent k _ hk
    rw [hb, reqOne_none ho]
  refine reshape_some.2 ⟨r2, q, hq, fits_of_get hql qsome, ?_, ?_⟩
  · rw [← count_le_one]
    intro i j hi hj
    exact count_le_one.2 hm i j (qnone i hi) (qnone j hj)
  · intro hn v hv
    obtain ⟨j, hj⟩ := List.getElem?_of_mem hn
    obtain ⟨k, hk⟩ := List.getElem?_of_mem hv
    have hjf := qnone j hj
    have hkj : k ≠ j := by rintro rfl; rw [hj] at hk; cases hk
    have hz' := qsome k v hk
    have hk2 : k < s2.length := by
      have := (List.getElem?_eq_some_iff.1 hz').1; omega
    have hj2 : j < s2.length := by
      have := (List.getElem?_eq_some_iff.1 hj).1; omega
    have hs2k := List.getElem?_eq_getElem hk2
    have hs2j := List.getElem?_eq_getElem hj2
    have hk2ne : s2[k] ≠ -1 := by
      intro hc
      have := fuseReq_get (s1 := s1) hs2k
      rw [hc, if_neg (by decide)] at this
      exact hkj (count_le_one.2 hm k j this hjf)
    obtain ⟨c2', hc2, ho2⟩ := g2.2 k _ hs2k
    rw [Nat.zero_add] at ho2
    -- the entry of the second request at k is not open
    have hc2ne : c2' ≠ none := by
      rintro rfl
      exact hk2ne (reqOne_none ho2)
    obtain ⟨w, rfl⟩ := Option.ne_none_iff_exists'.1 hc2ne
    have hw := fits_get f2 hc2
    rw [hz'] at hw; cases hw
    have hjf' := fuseReq_get (s1 := s1) hs2j
    rw [hjf] at hjf'
    have hjf' := Option.some.inj hjf'
    by_cases h0 : s2[j] = 0
    · -- the open entry comes from the first request
      rw [if_pos h0] at hjf'
      have hs1j : s1[j]? = some (-1) := by
        cases h1 : s1[j]? with
        | none => rw [h1, h0] at hjf'; simp at hjf'
        | some b => rw [h1] at hjf'; simp at hjf'; rw [hjf']
      obtain ⟨cj, hcj, hoj⟩ := g1.2 j _ hs1j
      have : cj = none := by
        unfold reqOne at hoj
        simpa using hoj.symm
      subst this
      by_cases h0k : s2[k] = 0
      · have hoo : (y.shape[k]?).map some = some (some v) := by
          have : reqOne y.shape false k 0 = (y.shape[k]?).map some := by simp [reqOne]
          rw [h0k, this] at ho2
          exact ho2
        rw [Option.map_eq_some_iff] at hoo
        obtain ⟨w, hw, hw'⟩ := hoo
        cases hw'
        have hk1 : k < q1.length := by
          have := (List.getElem?_eq_some_iff.1 hw).1
          rw [g1.1]; omega
        have hq1 := List.getElem?_eq_getElem hk1
        cases hx : q1[k] with
        | none =>
          rw [hx] at hq1
          exact absurd (count_le_one.2 c1 k j hq1 hcj) hkj
        | some u =>
          rw [hx] at hq1
          have := fits_get f1 hq1
          rw [hw] at this; cases this
          exact n1 (List.mem_of_getElem? hcj) v (List.mem_of_getElem? hq1)
      · unfold reqOne at ho2
        rw [if_neg hk2ne, if_neg h0k] at ho2
        split at ho2
        · have := Option.some.inj (Option.some.inj ho2)
          omega
        · cases ho2
    · rw [if_neg h0] at hjf'
      -- the open entry is that of the second request
      obtain ⟨cj, hcj, hoj⟩ := g2.2 j _ hs2j
      rw [← hjf'] at hoj
      have : cj = none := by
        unfold reqOne at hoj
        simpa using hoj.symm
      subst this
      exact n2 (List.mem_of_getElem? hcj) v (List.mem_of_getElem? hc2)

/-- With `allowzero` set, the data only matters through its number of elements. -/
theorem reshape_allowzero {x y : Tensor V} {s1 : List ℕ} (s : List ℤ) (h : x.retag s1 = some y) :
    reshape y true s = reshape x true s := by
  have e : ∀ (d d' : List ℕ) (k : ℕ), reqDims d true k s = reqDims d' true k s := by
    intro d d'
    induction s with
    | nil => intro k; rfl
    | cons a s ih =>
      intro k
      simp only [reqDims, if_true, ih (k + 1)]
  unfold reshape
  rw [e y.shape x.shape, retag_shape h, retag_prod h]
  congr 1
  funext q
  congr 1
  funext d
  exact retag_retag h

end Verif.Rewrite
