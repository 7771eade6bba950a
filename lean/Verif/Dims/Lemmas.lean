import Verif.Dims.Spec

/-!
# Each dimension found by a visit is equal to the visited one
-/

namespace Verif.Dims

/-- What a dimension of the analysis stands for: a tensor of static shape `[1]` stands for its element. -/
def size (g : Graph) (r : Run) (d : Dim) : Option ℤ :=
  if g.ty d.1 = [some 1] then (r.data d.1).head? else ((r.shape d.1)[d.2]?).map fun (n : ℕ) => (n : ℤ)

/-- Dimensions that are in the sets. -/
def InSet (g : Graph) (d : Dim) : Prop :=
  defOp g d.1 = none ∨
    ∃ o, defOp g d.1 = some o ∧ (o.kind = .dim d.2 ∨ o.kind = .cast ∨ (g.ty d.1)[d.2]? = some none)

/-- All members of a set are equal. -/
def Sound (g : Graph) (r : Run) (m : List (List Dim)) : Prop :=
  ∀ S ∈ m, ∀ d ∈ S, ∀ e ∈ S, size g r d = size g r e

theorem conforms_length {t : Ty} {s : List ℕ} (h : Conforms t s) : t.length = s.length := h.length_eq

theorem conforms_get {t : Ty} {s : List ℕ} (h : Conforms t s) (i : ℕ) (x : Option ℕ) (hx : t[i]? = some x) :
    ∃ n : ℕ, s[i]? = some n ∧ (x = none ∨ x = some n) := by
  induction h generalizing i with
  | nil => simp at hx
  | cons hd tl ih =>
    cases i with
    | zero => simp at hx; subst hx; exact ⟨_, by simp, hd⟩
    | succ i => simp at hx; obtain ⟨n, h1, h2⟩ := ih i hx; exact ⟨n, by simpa using h1, h2⟩

theorem conforms_static {t : Ty} {s : List ℕ} (h : Conforms t s) (i n : ℕ) (hx : t[i]? = some (some n)) :
    s[i]? = some n := by
  obtain ⟨k, h1, h2⟩ := conforms_get h i _ hx
  rcases h2 with h2 | h2
  · simp at h2
  · simp at h2; rw [h1, h2]

theorem size_shape (g : Graph) (r : Run) (d : Dim) (h : g.ty d.1 ≠ [some 1]) :
    size g r d = ((r.shape d.1)[d.2]?).map fun (n : ℕ) => (n : ℤ) := by simp [size, h]

theorem size_dyn (g : Graph) (r : Run) (d : Dim) (h : (g.ty d.1)[d.2]? = some none) :
    size g r d = ((r.shape d.1)[d.2]?).map fun (n : ℕ) => (n : ℤ) := by
  apply size_shape
  intro h1
  rw [h1] at h
  rcases d with ⟨v, a⟩
  cases a with
  | zero => simp at h
  | succ a => simp at h

theorem size_rank (g : Graph) (r : Run) (d : Dim) (h : (g.ty d.1).length ≠ 1) :
    size g r d = ((r.shape d.1)[d.2]?).map fun (n : ℕ) => (n : ℤ) := by
  apply size_shape
  intro h1
  rw [h1] at h
  simp at h

theorem defOp_mem {g : Graph} {v : Val} {o : Op} (h : defOp g v = some o) : o ∈ g.ops ∧ v ∈ o.results := by
  unfold defOp at h
  have h1 := List.mem_of_find?_eq_some h
  have h2 := List.find?_some h
  exact ⟨h1, by simpa using h2⟩

/-- Insertion keeps the meaning. -/
theorem insertWhen_size {g : Graph} (r : Run) (hw : WellFormed g) (v : Val) (i : ℕ) (e : Dim) (he : e ∈ insertWhen g v i) :
    size g r e = size g r (v, i) ∧ InSet g e ∧ e.1 = v := by
  unfold insertWhen at he
  cases hd : defOp g v with
  | none =>
    rw [hd] at he
    simp only [List.mem_singleton] at he
    subst he
    exact ⟨rfl, Or.inl hd, rfl⟩
  | some o =>
    rw [hd] at he
    simp only at he
    split at he
    · simp at he
    · rename_i axis hk
      simp only [List.mem_singleton] at he
      subst he
      have := (hw.dimTy o (defOp_mem hd).1 axis hk).1 v (defOp_mem hd).2
      exact ⟨by simp [size, this], Or.inr ⟨o, hd, Or.inl hk⟩, rfl⟩
    · rename_i hk
      simp only [List.mem_singleton] at he
      subst he
      exact ⟨rfl, Or.inr ⟨o, hd, Or.inr (Or.inl hk)⟩, rfl⟩
    · split at he
      · rename_i hdyn
        simp only [List.mem_singleton] at he
        subst he
        exact ⟨rfl, Or.inr ⟨o, hd, Or.inr (Or.inr hdyn)⟩, rfl⟩
      · simp at he

theorem normAxis_some {g : Graph} {v : Val} {a : ℤ} {k : ℕ} (h : normAxis g v a = some k) :
    k < (g.ty v).length ∧ ((k : ℤ) = a ∨ (a < 0 ∧ (k : ℤ) = a + (g.ty v).length)) := by
  unfold normAxis at h
  dsimp only at h
  by_cases ha : a < 0
  · rw [if_pos ha] at h
    split at h
    · simp at h; omega
    · simp at h
  · rw [if_neg ha] at h
    split at h
    · simp at h; omega
    · simp at h

theorem sameSet_size {g : Graph} {r : Run} {m : List (List Dim)} (hs : Sound g r m) (d e : Dim) (h : sameSet m d e = true) :
    size g r d = size g r e := by
  unfold sameSet at h
  simp only [Bool.or_eq_true, decide_eq_true_eq, List.any_eq_true, Bool.and_eq_true] at h
  rcases h with h | ⟨S, hS, h1, h2⟩
  · rw [h]
  · exact hs S hS d h1 e h2

/-- The answers of `sameDim` are right if the sets are. -/
theorem sameDimAt_shape {g : Graph} {r : Run} {m : List (List Dim)} (hf : ∀ v : Val, Conforms (g.ty v) (r.shape v))
    (hs : Sound g r m) (v : Val) (i : ℕ) (w : Val) (j : ℕ) (h : sameDimAt g m v i w j = true) :
    (r.shape v)[i]? = (r.shape w)[j]? := by
  unfold sameDimAt at h
  split at h
  · rename_i hc; rw [hc.1, hc.2]
  · split at h
    · rename_i x y hx hy
      simp only [decide_eq_true_eq] at h
      rw [conforms_static (hf v) i x hx, conforms_static (hf w) j y hy, h]
    · rename_i hx hy
      have h1 := sameSet_size hs _ _ h
      rw [size_dyn g r (v, i) hx, size_dyn g r (w, j) hy] at h1
      exact Option.map_injective (fun a b hab => by exact_mod_cast hab) h1
    · simp at h

theorem sameDim_norm {g : Graph} {m : List (List Dim)} {v w : Val} {a b : ℤ} (h : sameDim g m v a w b = true) :
    ∃ i j : ℕ, normAxis g v a = some i ∧ normAxis g w b = some j ∧ sameDimAt g m v i w j = true := by
  unfold sameDim at h
  split at h
  · rename_i i j hi hj; exact ⟨i, j, hi, hj, h⟩
  · simp at h

/-! ### Consuming operations -/

section
variable {g : Graph} {r : Run} (hw : WellFormed g) (hx : Executes g r) (hp : Plain g r)
include hw hx hp

omit hw hp in
theorem rank_eq (v : Val) : (g.ty v).length = (r.shape v).length := conforms_length (hx.fits v)

omit hx hp in
theorem pair_size (d a b e : Dim) (h : size g r a = size g r b) (he : e ∈ consumePair g d a b) :
    size g r e = size g r d ∧ InSet g e := by
  unfold consumePair at he
  split at he
  · rename_i h1
    have := insertWhen_size r hw _ _ e he
    exact ⟨by rw [this.1, ← h1, h], this.2.1⟩
  · split at he
    · rename_i h1
      have := insertWhen_size r hw _ _ e he
      exact ⟨by rw [this.1, ← h1, h], this.2.1⟩
    · simp at he

theorem consume_size (o : Op) (ho : o ∈ g.ops) (d e : Dim) (he : e ∈ consume g d o) :
    size g r e = size g r d ∧ InSet g e := by
  have hrun := hx.runs o ho
  unfold consume at he
  unfold OpRuns at hrun
  cases hk : o.kind with
  | concat axis =>
    simp only [hk] at he hrun
    obtain ⟨xs, y, hne, h1, h2, k, hk1, hax, hall, hsum, hdata⟩ := hrun
    have hv : o.vals = xs := by simp [Op.vals, h1, List.filterMap_map]
    rw [hv] at he
    unfold consumeConcat at he
    dsimp only at he
    have hhead : xs.headD 0 ∈ xs := by cases xs with
      | nil => exact absurd rfl hne
      | cons a l => simp
    have hrank : (g.ty (xs.headD 0)).length = (r.shape y).length := by rw [rank_eq hx]; exact (hall _ hhead).1
    rw [hrank] at he
    by_cases hc : d.1 ∈ xs ∧ d.2 < (r.shape y).length ∧
        (d.2 : ℤ) ≠ (if axis < 0 then axis + ((r.shape y).length : ℤ) else axis)
    · rw [if_pos hc] at he
      obtain ⟨hc1, hc2, hc3⟩ := hc
      have hck : d.2 ≠ k := by
        rcases hax with hax | hax
        · subst hax; intro h; apply hc3; rw [if_neg (by omega)]; omega
        · intro h; apply hc3; rw [if_pos (by omega)]; omega
      have hr2 : (r.shape y).length ≠ 1 := by omega
      rw [List.mem_flatMap] at he
      obtain ⟨w, hwx, he⟩ := he
      split at he
      · simp at he
      · have h3 := insertWhen_size r hw _ _ e he
        refine ⟨?_, h3.2.1⟩
        rw [h3.1, size_rank g r (w, d.2) (by rw [rank_eq hx]; dsimp only; rw [(hall w hwx).1]; exact hr2),
          size_rank g r d (by rw [rank_eq hx, (hall _ hc1).1]; exact hr2)]
        dsimp only
        rw [(hall w hwx).2 _ hck, (hall _ hc1).2 _ hck]
    · rw [if_neg hc] at he; simp at he
  | gemm ta tb =>
    simp only [hk] at he hrun
    obtain ⟨a, b, y, cs, m, k, n, h1, h2, ha, hb, hy⟩ := hrun
    have e0 : o.opd 0 = some a := by simp [Op.opd, h1]
    have e1 : o.opd 1 = some b := by simp [Op.opd, h1]
    rw [e0, e1] at he
    simp only at he
    refine pair_size hw _ _ _ e ?_ he
    rw [size_rank g r (a, _) (by rw [rank_eq hx]; dsimp only; rw [ha]; split <;> simp),
      size_rank g r (b, _) (by rw [rank_eq hx]; dsimp only; rw [hb]; split <;> simp)]
    dsimp only
    rw [ha, hb]
    cases ta <;> cases tb <;> simp
  | matmul i =>
    simp only [hk] at he hrun
    obtain ⟨a, b, y, cs, h1, hi, h2, hm⟩ := hrun
    have e0 : o.opd 0 = some a := by simp [Op.opd, h1]
    have e1 : o.opd 1 = some b := by simp [Op.opd, h1]
    rw [e0, e1] at he
    simp only at he
    split at he
    · rename_i hc
      refine pair_size hw _ _ _ e ?_ he
      rw [size_rank g r (a, _) (by dsimp only; omega), size_rank g r (b, _) (by dsimp only; omega)]
      dsimp only
      rw [rank_eq hx, rank_eq hx] at hc ⊢
      obtain ⟨hc1, hc2⟩ := hc
      rcases hm with ⟨ba, bb, by', m, k, n, h3, h4, h5, h6⟩ | ⟨bb, k, n, h3, h4, h5⟩ | ⟨ba, m, k, h3, h4, h5⟩ | ⟨k, h3, h4, h5⟩
      · rw [h3, h4]; simp
      · rw [h3] at hc1; simp at hc1
      · rw [h4] at hc2; simp at hc2
      · rw [h4] at hc2; simp at hc2
    · simp at he
  | rnn layout =>
    simp only [hk] at he hrun
    obtain ⟨n, h1, h2⟩ := hrun
    have key : ∀ f ∈ batchDims o layout, size g r f = some (n : ℤ) := by
      intro f hf
      unfold batchDims at hf
      dsimp only at hf
      simp only [List.mem_append, Option.mem_toList, Option.map_eq_some_iff] at hf
      rcases hf with ((⟨x, h3, h4⟩ | ⟨x, h3, h4⟩) | ⟨x, h3, h4⟩) | ⟨x, h3, h4⟩
      · have := h1 0 (by simp) x h3
        subst h4
        rw [size_rank g r _ (by rw [rank_eq hx]; dsimp only; omega)]
        dsimp only
        rw [this.2]; rfl
      · have := h2 x h3
        subst h4
        rw [size_shape g r _ (hp.seq o ho layout hk x h3)]
        dsimp only
        rw [this]; rfl
      · have := h1 5 (by simp) x h3
        subst h4
        rw [size_rank g r _ (by rw [rank_eq hx]; dsimp only; omega)]
        dsimp only
        rw [this.2]; rfl
      · have := h1 6 (by simp) x h3
        subst h4
        rw [size_rank g r _ (by rw [rank_eq hx]; dsimp only; omega)]
        dsimp only
        rw [this.2]; rfl
    split at he
    · rename_i hd
      rw [List.mem_flatMap] at he
      obtain ⟨f, hf, he⟩ := he
      have h3 := insertWhen_size r hw _ _ e he
      exact ⟨by rw [h3.1, key d hd]; exact key f hf, h3.2.1⟩
    · simp at he
  | _ => simp [hk] at he

theorem consuming_size (d e : Dim) (he : e ∈ consuming g d) : size g r e = size g r d ∧ InSet g e := by
  unfold consuming at he
  rw [List.mem_flatMap] at he
  obtain ⟨o, ho, he⟩ := he
  have h1 := (List.takeWhile_prefix (p := g.target) (l := users g d.1)).subset ho
  unfold users at h1
  exact consume_size hw hx hp o (List.mem_of_mem_filter h1) d e he

end

end Verif.Dims
