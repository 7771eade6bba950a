import Verif.Krnl.LoopModel
import Mathlib.Tactic.Linarith
import Mathlib.Tactic.Ring
import Mathlib.Algebra.BigOperators.Group.List.Basic

namespace Verif.Krnl

/-- `p` lies in all the ranges of `b`. -/
def InBox {n : ℕ} (p : Fin n → ℤ) (b : Box n) : Prop :=
  ∀ d, (b d).1 ≤ p d ∧ p d < (b d).2

instance {n : ℕ} (p : Fin n → ℤ) (b : Box n) : Decidable (InBox p b) := by
  unfold InBox; infer_instance

theorem mem_starts {lo hi : ℤ} {s : ℕ} (hs : 0 < s) {x : ℤ} :
    x ∈ starts lo hi s ↔ ∃ k : ℕ, x = lo + k * s ∧ x < hi := by
  unfold starts
  simp only [List.mem_map, List.mem_range]
  constructor
  · rintro ⟨k, hk, rfl⟩
    refine ⟨k, rfl, ?_⟩
    have h1 : k + 1 ≤ ((hi - lo).toNat + (s - 1)) / s := hk
    rw [Nat.le_div_iff_mul_le hs] at h1
    have h2 : k * s + 1 ≤ (hi - lo).toNat := by
      have := Nat.add_mul k 1 s
      omega
    have h3 : ((k * s : ℕ) : ℤ) = (k : ℤ) * s := by push_cast; ring
    omega
  · rintro ⟨k, rfl, hx⟩
    refine ⟨k, ?_, rfl⟩
    show k + 1 ≤ _
    rw [Nat.le_div_iff_mul_le hs]
    have h3 : ((k * s : ℕ) : ℤ) = (k : ℤ) * s := by push_cast; ring
    have := Nat.add_mul k 1 s
    omega

theorem starts_pairwise {lo hi : ℤ} {s : ℕ} :
    (starts lo hi s).Pairwise fun x y => x + (s : ℤ) ≤ y := by
  unfold starts
  rw [List.pairwise_map]
  refine List.Pairwise.imp ?_ List.pairwise_lt_range
  intro a b hab
  have : ((a : ℤ) + 1) * s ≤ b * s := by
    apply mul_le_mul_of_nonneg_right
    · exact_mod_cast hab
    · exact Int.natCast_nonneg s
  linarith

theorem starts_countP {lo hi v : ℤ} {s : ℕ} (hs : 0 < s) :
    (starts lo hi s).countP (fun x => decide (x ≤ v ∧ v < min (x + s) hi)) =
      if lo ≤ v ∧ v < hi then 1 else 0 := by
  by_cases h : lo ≤ v ∧ v < hi
  · rw [if_pos h]
    -- the start of the tile of `v`
    have hs' : (0 : ℤ) < s := by exact_mod_cast hs
    let k : ℕ := ((v - lo) / s).toNat
    have hk : (k : ℤ) = (v - lo) / s :=
      Int.toNat_of_nonneg (Int.ediv_nonneg (by omega) (by omega))
    have hdiv := Int.mul_ediv_add_emod (v - lo) s
    have hmod0 := Int.emod_nonneg (v - lo) (ne_of_gt hs')
    have hmod1 := Int.emod_lt_of_pos (v - lo) hs'
    have hkm : (k : ℤ) * s = s * ((v - lo) / s) := by rw [hk]; ring
    have hmem : lo + (k : ℤ) * s ∈ starts lo hi s :=
      (mem_starts hs).2 ⟨k, rfl, by omega⟩
    apply le_antisymm
    · -- at most one
      have key : ∀ l : List ℤ, l.Pairwise (fun x y => x + (s : ℤ) ≤ y) →
          l.countP (fun x => decide (x ≤ v ∧ v < min (x + s) hi)) ≤ 1 := by
        intro l
        induction l with
        | nil => intro _; simp
        | cons a l ih =>
          intro hp
          rw [List.pairwise_cons] at hp
          rw [List.countP_cons]
          by_cases ha : a ≤ v ∧ v < min (a + s) hi
          · have hz : l.countP (fun x => decide (x ≤ v ∧ v < min (x + s) hi)) = 0 := by
              rw [List.countP_eq_zero]
              intro x hx
              have := hp.1 x hx
              simp only [decide_eq_true_eq, not_and]
              intro hxv
              have := ha.2
              omega
            rw [hz, decide_eq_true ha]; simp
          · rw [decide_eq_false ha]; simpa using ih hp.2
      exact key _ starts_pairwise
    · rw [Nat.one_le_iff_ne_zero, ← Nat.pos_iff_ne_zero, List.countP_pos_iff]
      exact ⟨_, hmem, by simp only [decide_eq_true_eq]; omega⟩
  · rw [if_neg h, List.countP_eq_zero]
    intro x hx
    obtain ⟨k, rfl, _⟩ := (mem_starts hs).1 hx
    simp only [decide_eq_true_eq]
    have : (0 : ℤ) ≤ k * s := by positivity
    intro hh
    apply h
    omega

theorem inBox_update {n : ℕ} {p : Fin n → ℤ} {b : Box n} {d : Fin n} {x y : ℤ}
    (hx : (b d).1 ≤ x) (hy : y ≤ (b d).2) :
    InBox p (Function.update b d (x, y)) ↔ InBox p b ∧ x ≤ p d ∧ p d < y := by
  unfold InBox
  constructor
  · intro h
    have hd := h d
    simp only [Function.update_self] at hd
    refine ⟨fun e => ?_, hd⟩
    by_cases he : e = d
    · subst he; omega
    · have := h e
      rwa [Function.update_of_ne he] at this
  · rintro ⟨h, h1, h2⟩ e
    by_cases he : e = d
    · subst he; simp only [Function.update_self]; exact ⟨h1, h2⟩
    · rw [Function.update_of_ne he]; exact h e

theorem sum_map_ite {α : Type*} (l : List α) (q : α → Bool) :
    (l.map fun x => if q x then 1 else 0).sum = l.countP q := by
  induction l with
  | nil => rfl
  | cons a l ih =>
    rw [List.map_cons, List.sum_cons, ih, List.countP_cons, add_comm]

/-- Every point of the ranges lies in exactly one of the visited ranges. -/
theorem boxes_countP {n : ℕ} (nest : List (Lp n)) :
    (∀ l ∈ nest, 0 < l.step) → ∀ (b : Box n) (p : Fin n → ℤ),
      (boxes nest b).countP (fun c => decide (InBox p c)) =
        if InBox p b then 1 else 0 := by
  induction nest with
  | nil =>
    intro _ b p
    simp [boxes, List.countP_cons]
  | cons l ls ih =>
    intro hs b p
    have hl := hs l (by simp)
    have ih' := ih (fun m hm => hs m (by simp [hm]))
    rw [boxes]
    by_cases ht : l.triv
    · rw [if_pos ht]; exact ih' b p
    · rw [if_neg ht, List.countP_flatMap]
      have : (List.map ((List.countP fun c => decide (InBox p c)) ∘ fun x =>
            boxes ls (Function.update b l.dim (x, min (x + l.step) (b l.dim).2)))
            (starts (b l.dim).1 (b l.dim).2 l.step)) =
          (starts (b l.dim).1 (b l.dim).2 l.step).map fun x =>
            if decide (InBox p b) && decide (x ≤ p l.dim ∧
              p l.dim < min (x + l.step) (b l.dim).2) then 1 else 0 := by
        apply List.map_congr_left
        intro x hx
        obtain ⟨k, rfl, _⟩ := (mem_starts hl).1 hx
        have h0 : (0 : ℤ) ≤ k * l.step := by positivity
        simp only [Function.comp_apply]
        rw [ih']
        have hiff := inBox_update (p := p) (b := b) (d := l.dim)
          (x := (b l.dim).1 + k * l.step)
          (y := min ((b l.dim).1 + k * l.step + l.step) (b l.dim).2)
          (by omega) (min_le_right _ _)
        by_cases hc : InBox p (Function.update b l.dim ((b l.dim).1 + k * l.step,
            min ((b l.dim).1 + k * l.step + l.step) (b l.dim).2))
        · rw [if_pos hc]
          have := hiff.1 hc
          rw [decide_eq_true this.1, decide_eq_true this.2]; rfl
        · rw [if_neg hc]
          rw [hiff] at hc
          by_cases h1 : InBox p b
          · rw [decide_eq_true h1, decide_eq_false (fun h2 => hc ⟨h1, h2⟩)]; rfl
          · rw [decide_eq_false h1]; rfl
      rw [this, sum_map_ite]
      by_cases hp : InBox p b
      · simp only [hp, decide_true, Bool.true_and, if_true]
        rw [starts_countP hl, if_pos (hp l.dim)]
      · simp [hp]

/-- Visited ranges are inside the initial ones. -/
theorem boxes_sub {n : ℕ} (nest : List (Lp n)) :
    (∀ l ∈ nest, 0 < l.step) → ∀ (b c : Box n), c ∈ boxes nest b →
      ∀ d, (b d).1 ≤ (c d).1 ∧ (c d).2 ≤ (b d).2 := by
  induction nest with
  | nil =>
    intro _ b c hc d
    simp only [boxes, List.mem_singleton] at hc
    subst hc; exact ⟨le_refl _, le_refl _⟩
  | cons l ls ih =>
    intro hs b c hc d
    have hl := hs l (by simp)
    have ih' := ih (fun m hm => hs m (by simp [hm]))
    rw [boxes] at hc
    by_cases ht : l.triv
    · rw [if_pos ht] at hc; exact ih' b c hc d
    · rw [if_neg ht, List.mem_flatMap] at hc
      obtain ⟨x, hx, hc⟩ := hc
      obtain ⟨k, rfl, _⟩ := (mem_starts hl).1 hx
      have h0 : (0 : ℤ) ≤ k * l.step := by positivity
      have := ih' _ c hc d
      by_cases hd : d = l.dim
      · subst hd
        simp only [Function.update_self] at this
        omega
      · rwa [Function.update_of_ne hd] at this

/-- Visited ranges of nonempty ranges are nonempty. -/
theorem boxes_nonempty {n : ℕ} (nest : List (Lp n)) :
    (∀ l ∈ nest, 0 < l.step) → ∀ (b c : Box n), (∀ d, (b d).1 < (b d).2) →
      c ∈ boxes nest b → ∀ d, (c d).1 < (c d).2 := by
  induction nest with
  | nil =>
    intro _ b c hb hc d
    simp only [boxes, List.mem_singleton] at hc
    subst hc; exact hb d
  | cons l ls ih =>
    intro hs b c hb hc
    have hl := hs l (by simp)
    have ih' := ih (fun m hm => hs m (by simp [hm]))
    rw [boxes] at hc
    by_cases ht : l.triv
    · rw [if_pos ht] at hc; exact ih' b c hb hc
    · rw [if_neg ht, List.mem_flatMap] at hc
      obtain ⟨x, hx, hc⟩ := hc
      obtain ⟨k, rfl, hlt⟩ := (mem_starts hl).1 hx
      refine ih' _ c ?_ hc
      intro e
      by_cases he : e = l.dim
      · subst he
        simp only [Function.update_self]
        omega
      · rw [Function.update_of_ne he]; exact hb e

/-- Once a unit-step loop of dimension `d` has run, the range of `d` is one
value. -/
theorem boxes_unit {n : ℕ} (nest : List (Lp n)) (d : Fin n) :
    (∀ l ∈ nest, 0 < l.step) → ∀ (b c : Box n), c ∈ boxes nest b →
      ((b d).2 = (b d).1 + 1 ∨ ∃ l ∈ nest, l.dim = d ∧ l.step = 1 ∧ l.triv = false) →
      (c d).2 = (c d).1 + 1 := by
  induction nest with
  | nil =>
    intro _ b c hc h
    simp only [boxes, List.mem_singleton] at hc
    subst hc
    rcases h with h | ⟨l, hl, _⟩
    · exact h
    · simp at hl
  | cons l ls ih =>
    intro hs b c hc h
    have hl := hs l (by simp)
    have ih' := ih (fun m hm => hs m (by simp [hm]))
    rw [boxes] at hc
    by_cases ht : l.triv
    · rw [if_pos ht] at hc
      refine ih' b c hc ?_
      rcases h with h | ⟨m, hm, h1, h2, h3⟩
      · exact Or.inl h
      · rcases List.mem_cons.1 hm with rfl | hm
        · rw [ht] at h3; exact absurd h3 (by simp)
        · exact Or.inr ⟨m, hm, h1, h2, h3⟩
    · rw [if_neg ht, List.mem_flatMap] at hc
      obtain ⟨x, hx, hc⟩ := hc
      obtain ⟨k, rfl, hlt⟩ := (mem_starts hl).1 hx
      have h0 : (0 : ℤ) ≤ k * l.step := by positivity
      refine ih' _ c hc ?_
      rcases h with h | ⟨m, hm, h1, h2, h3⟩
      · left
        by_cases hd : d = l.dim
        · subst hd
          simp only [Function.update_self]
          have : (1 : ℤ) ≤ l.step := by exact_mod_cast hl
          omega
        · rwa [Function.update_of_ne hd]
      · rcases List.mem_cons.1 hm with rfl | hm
        · left
          subst h1
          simp only [Function.update_self]
          rw [h2] at hlt ⊢
          push_cast
          omega
        · exact Or.inr ⟨m, hm, h1, h2, h3⟩

/-- A nest with positive steps in which every dimension has a unit-step loop. -/
def Full {n : ℕ} (nest : List (Lp n)) : Prop :=
  (∀ l ∈ nest, 0 < l.step) ∧ ∀ d, ∃ l ∈ nest, l.dim = d ∧ l.step = 1 ∧ l.triv = false

theorem visits_count {n : ℕ} {nest : List (Lp n)} (h : Full nest) (b : Box n)
    (p : Fin n → ℤ) : (visits nest b).count p = if InBox p b then 1 else 0 := by
  rw [← boxes_countP nest h.1 b p, visits, List.count, List.countP_map]
  apply List.countP_congr
  intro c hc
  have hu := fun d => boxes_unit nest d h.1 b c hc (Or.inr (h.2 d))
  simp only [Function.comp_apply, beq_iff_eq, decide_eq_true_eq]
  constructor
  · intro he d
    have h1 : (c d).1 = p d := congrFun he d
    have := hu d
    omega
  · intro hp
    funext d
    have := hp d
    have := hu d
    omega

theorem visits_nodup {n : ℕ} {nest : List (Lp n)} (h : Full nest) (b : Box n) :
    (visits nest b).Nodup := by
  rw [List.nodup_iff_count_le_one]
  intro p
  rw [visits_count h]
  split <;> omega

theorem mem_visits {n : ℕ} {nest : List (Lp n)} (h : Full nest) (b : Box n)
    (p : Fin n → ℤ) : p ∈ visits nest b ↔ InBox p b := by
  rw [← List.count_pos_iff, visits_count h]
  split <;> simp [*]

theorem full_initNest (n : ℕ) : Full (initNest n) := by
  constructor
  · intro l hl
    simp only [initNest, List.mem_map] at hl
    obtain ⟨d, _, rfl⟩ := hl
    simp
  · intro d
    exact ⟨_, List.mem_map.2 ⟨d, List.mem_finRange d, rfl⟩, rfl, rfl, rfl⟩

/-- What `krnl.block` does to the list of loops. -/
theorem blockAt_eq {n : ℕ} : ∀ (nest : List (Lp n)) (p T : ℕ) (u : Bool) (nest' : List (Lp n)),
    blockAt nest p T u = some nest' →
    ∃ pre l post, nest = pre ++ l :: post ∧ pre.length = p ∧
      nest' = pre ++ { l with step := l.step * T } :: { l with triv := !u } :: post
  | [], _, _, _, _, h => by simp [blockAt] at h
  | l :: ls, 0, T, u, nest', h => by
    simp only [blockAt, Option.some.injEq] at h
    exact ⟨[], l, ls, rfl, rfl, h.symm⟩
  | l :: ls, p + 1, T, u, nest', h => by
    simp only [blockAt, Option.map_eq_some_iff] at h
    obtain ⟨r, hr, rfl⟩ := h
    obtain ⟨pre, m, post, rfl, hlen, rfl⟩ := blockAt_eq ls p T u r hr
    exact ⟨l :: pre, m, post, rfl, by simp [hlen], rfl⟩

theorem applyOp_pos {n : ℕ} {nest nest' : List (Lp n)} {o : SOp}
    (h : ∀ l ∈ nest, 0 < l.step) (ho : applyOp nest o = some nest') :
    ∀ l ∈ nest', 0 < l.step := by
  cases o with
  | block p T u =>
    simp only [applyOp] at ho
    split at ho
    · simp at ho
    · rename_i hc
      push Not at hc
      obtain ⟨pre, l, post, rfl, _, rfl⟩ := blockAt_eq _ _ _ _ _ ho
      intro m hm
      simp only [List.mem_append, List.mem_cons] at hm
      rcases hm with hm | rfl | rfl | hm
      · exact h m (by simp [hm])
      · exact Nat.mul_pos (h l (by simp)) (Nat.pos_of_ne_zero hc.1)
      · exact h l (by simp)
      · exact h m (by simp [hm])
  | permute map =>
    simp only [applyOp, Option.bind_eq_some_iff] at ho
    obtain ⟨r, _, ho⟩ := ho
    split at ho
    · rename_i hc
      simp only [Option.some.injEq] at ho
      subst ho
      intro l hl
      exact h l (hc.1.mem_iff.1 hl)
    · simp at ho

theorem applyOp_full {n : ℕ} {nest nest' : List (Lp n)} {o : SOp} (hu : o.used = true)
    (h : Full nest) (ho : applyOp nest o = some nest') : Full nest' := by
  refine ⟨applyOp_pos h.1 ho, ?_⟩
  cases o with
  | block p T u =>
    simp only [SOp.used] at hu
    subst hu
    simp only [applyOp] at ho
    split at ho
    · simp at ho
    · obtain ⟨pre, l, post, rfl, _, rfl⟩ := blockAt_eq _ _ _ _ _ ho
      intro d
      obtain ⟨m, hm, h1, h2, h3⟩ := h.2 d
      simp only [List.mem_append, List.mem_cons] at hm
      rcases hm with hm | rfl | hm
      · exact ⟨m, by simp [hm], h1, h2, h3⟩
      · exact ⟨{ m with triv := !true }, by simp, h1, h2, rfl⟩
      · exact ⟨m, by simp [hm], h1, h2, h3⟩
  | permute map =>
    simp only [applyOp, Option.bind_eq_some_iff] at ho
    obtain ⟨r, _, ho⟩ := ho
    split at ho
    · rename_i hc
      simp only [Option.some.injEq] at ho
      subst ho
      intro d
      obtain ⟨m, hm, h1⟩ := h.2 d
      exact ⟨m, hc.1.mem_iff.2 hm, h1⟩
    · simp at ho

theorem applyAll_full {n : ℕ} : ∀ (os : List SOp) (nest nest' : List (Lp n)),
    (∀ o ∈ os, o.used = true) → Full nest → applyAll nest os = some nest' → Full nest'
  | [], nest, nest', _, h, ho => by
    simp only [applyAll, Option.some.injEq] at ho
    exact ho ▸ h
  | o :: os, nest, nest', hu, h, ho => by
    simp only [applyAll, Option.bind_eq_some_iff] at ho
    obtain ⟨r, hr, ho⟩ := ho
    exact applyAll_full os r nest' (fun o' h' => hu o' (by simp [h']))
      (applyOp_full (hu o (by simp)) h hr) ho

theorem applyAll_pos {n : ℕ} : ∀ (os : List SOp) (nest nest' : List (Lp n)),
    (∀ l ∈ nest, 0 < l.step) → applyAll nest os = some nest' → ∀ l ∈ nest', 0 < l.step
  | [], nest, nest', h, ho => by
    simp only [applyAll, Option.some.injEq] at ho
    exact ho ▸ h
  | o :: os, nest, nest', h, ho => by
    simp only [applyAll, Option.bind_eq_some_iff] at ho
    obtain ⟨r, hr, ho⟩ := ho
    exact applyAll_pos os r nest' (applyOp_pos h hr) ho

/-! Order -/

theorem boxes_sorted {n : ℕ} (nest : List (Lp n)) :
    (∀ l ∈ nest, 0 < l.step) → nest.Pairwise (fun l m => l.dim ≤ m.dim) →
      ∀ (b : Box n), (boxes nest b).Pairwise fun c e =>
        ∃ d, (∀ d' < d, c d' = e d') ∧ (c d).2 ≤ (e d).1 := by
  induction nest with
  | nil => intro _ _ b; simp [boxes]
  | cons l ls ih =>
    intro hs hd b
    have hl := hs l (by simp)
    rw [List.pairwise_cons] at hd
    have hs' : ∀ m ∈ ls, 0 < m.step := fun m hm => hs m (by simp [hm])
    have ih' := ih hs' hd.2
    rw [boxes]
    by_cases ht : l.triv
    · rw [if_pos ht]; exact ih' b
    · rw [if_neg ht, List.pairwise_flatMap]
      refine ⟨fun x _ => ih' _, ?_⟩
      refine List.Pairwise.imp ?_ starts_pairwise
      intro x y hxy c hc e he
      have stay : ∀ (ls : List (Lp n)), (∀ m ∈ ls, l.dim ≤ m.dim) →
          ∀ (b c : Box n), c ∈ boxes ls b → ∀ d' < l.dim, c d' = b d' := by
        intro ls
        induction ls with
        | nil =>
          intro _ b c hc d' _
          simp only [boxes, List.mem_singleton] at hc
          rw [hc]
        | cons m ms ihm =>
          intro hm b c hc d' hd'
          rw [boxes] at hc
          by_cases ht : m.triv
          · rw [if_pos ht] at hc
            exact ihm (fun k hk => hm k (by simp [hk])) b c hc d' hd'
          · rw [if_neg ht, List.mem_flatMap] at hc
            obtain ⟨z, _, hc⟩ := hc
            rw [ihm (fun k hk => hm k (by simp [hk])) _ c hc d' hd']
            rw [Function.update_of_ne]
            have := hm m (by simp)
            exact ne_of_lt (lt_of_lt_of_le hd' this)
      refine ⟨l.dim, ?_, ?_⟩
      · intro d' hd'
        rw [stay ls hd.1 _ c hc d' hd', stay ls hd.1 _ e he d' hd',
          Function.update_of_ne (ne_of_lt hd'), Function.update_of_ne (ne_of_lt hd')]
      · have h1 := (boxes_sub ls hs' _ c hc l.dim).2
        have h2 := (boxes_sub ls hs' _ e he l.dim).1
        simp only [Function.update_self] at h1 h2
        omega

theorem blockAt_sorted {n : ℕ} {nest nest' : List (Lp n)} {p T : ℕ} {u : Bool}
    (hd : nest.Pairwise (fun l m => l.dim ≤ m.dim)) (ho : blockAt nest p T u = some nest') :
    nest'.Pairwise (fun l m => l.dim ≤ m.dim) := by
  obtain ⟨pre, l, post, rfl, _, rfl⟩ := blockAt_eq _ _ _ _ _ ho
  rw [List.pairwise_append] at hd ⊢
  obtain ⟨h1, h2, h3⟩ := hd
  rw [List.pairwise_cons] at h2
  refine ⟨h1, ?_, ?_⟩
  · rw [List.pairwise_cons, List.pairwise_cons]
    refine ⟨?_, h2.1, h2.2⟩
    intro m hm
    rcases List.mem_cons.1 hm with rfl | hm
    · exact le_refl _
    · exact h2.1 m hm
  · intro m hm k hk
    simp only [List.mem_cons] at hk
    rcases hk with rfl | rfl | hk
    · exact h3 m hm l (by simp)
    · exact h3 m hm l (by simp)
    · exact h3 m hm k (by simp [hk])

theorem applyAll_sorted {n : ℕ} : ∀ (os : List SOp) (nest nest' : List (Lp n)),
    (∀ o ∈ os, o.isBlock = true) → nest.Pairwise (fun l m => l.dim ≤ m.dim) →
      applyAll nest os = some nest' → nest'.Pairwise (fun l m => l.dim ≤ m.dim)
  | [], nest, nest', _, h, ho => by
    simp only [applyAll, Option.some.injEq] at ho
    exact ho ▸ h
  | o :: os, nest, nest', hu, h, ho => by
    simp only [applyAll, Option.bind_eq_some_iff] at ho
    obtain ⟨r, hr, ho⟩ := ho
    refine applyAll_sorted os r nest' (fun o' h' => hu o' (by simp [h'])) ?_ ho
    cases o with
    | block p T u =>
      simp only [applyOp] at hr
      split at hr
      · simp at hr
      · exact blockAt_sorted h hr
    | permute m => have := hu (.permute m) (by simp); simp [SOp.isBlock] at this

theorem sorted_initNest (n : ℕ) :
    (initNest n).Pairwise (fun l m => l.dim ≤ m.dim) := by
  unfold initNest
  rw [List.pairwise_map]
  exact (List.pairwise_lt_finRange n).imp fun h => le_of_lt h

end Verif.Krnl
