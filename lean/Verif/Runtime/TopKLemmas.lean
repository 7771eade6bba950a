import Verif.Runtime.TopKModel
import Verif.Runtime.SortLemmas

namespace Verif.Runtime.Sort

/-- Heap order at node `i` for the heap occupying `[0, e]`. -/
def NodeOk (c : Nat → Nat → Int) (e : Int) (m : Mem) (i : Int) : Prop :=
  ∀ ch, (ch = 2 * i + 1 ∨ ch = 2 * i + 2) → ch ≤ e → c (m i) (m ch) ≤ 0

theorem siftDown_spec {n e : Int} {c : Nat → Nat → Int} (hc : StrictTotal c) (hen : e < n)
    (start : Int) (hs : 0 ≤ start) (f : Nat) : ∀ (root : Int) (m : Mem),
    start ≤ root → (e + 1 - root).toNat < f →
    (∀ i j : Int, 0 ≤ i → i ≤ e → 0 ≤ j → j ≤ e → m i = m j → i = j) →
    (∀ i, start ≤ i → i ≠ root → NodeOk c e m i) →
    (∀ i, start ≤ i → (root = 2 * i + 1 ∨ root = 2 * i + 2) →
      ∀ ch, (ch = 2 * root + 1 ∨ ch = 2 * root + 2) → ch ≤ e → c (m i) (m ch) ≤ 0) →
    ∃ m', siftDown n c e f root m = some m' ∧ PermOn start e m m' ∧
      ∀ i, start ≤ i → NodeOk c e m' i := by
  induction f with
  | zero => intro root m _ h; omega
  | succ f ih =>
    intro root m hr hf hinj hok hpar
    by_cases hch : root * 2 + 1 ≤ e
    · have r1 : rd n m root = some (m root) := by rw [rd, if_pos (by omega)]
      have r2 : rd n m (root * 2 + 1) = some (m (root * 2 + 1)) := by rw [rd, if_pos (by omega)]
      -- which child is picked
      obtain ⟨s2, hs2, hbest⟩ : ∃ s2 : Int,
          (if root * 2 + 1 + 1 ≤ e then
            (rd n m (if c (m root) (m (root * 2 + 1)) > 0 then root * 2 + 1 else root)).bind
              fun x => (rd n m (root * 2 + 1 + 1)).bind fun y =>
                some (if c x y > 0 then root * 2 + 1 + 1
                  else (if c (m root) (m (root * 2 + 1)) > 0 then root * 2 + 1 else root))
           else some (if c (m root) (m (root * 2 + 1)) > 0 then root * 2 + 1 else root)) = some s2 ∧
          (s2 = root ∧ NodeOk c e m root ∨
            (s2 = 2 * root + 1 ∨ s2 = 2 * root + 2) ∧ s2 ≤ e ∧ c (m s2) (m root) ≤ 0 ∧
              ∀ ch, (ch = 2 * root + 1 ∨ ch = 2 * root + 2) → ch ≤ e → ch ≠ s2 →
                c (m s2) (m ch) ≤ 0) := by
        have ne1 : m root ≠ m (root * 2 + 1) := by
          intro h; have := hinj _ _ (by omega) (by omega) (by omega) (by omega) h; omega
        by_cases c1 : c (m root) (m (root * 2 + 1)) > 0
        · have c1' := hc.total _ _ ne1 (by omega)
          by_cases hch2 : root * 2 + 1 + 1 ≤ e
          · have r3 : rd n m (root * 2 + 1 + 1) = some (m (root * 2 + 1 + 1)) := by
              rw [rd, if_pos (by omega)]
            have ne2 : m (root * 2 + 1) ≠ m (root * 2 + 1 + 1) := by
              intro h; have := hinj _ _ (by omega) (by omega) (by omega) (by omega) h; omega
            simp only [if_pos hch2, if_pos c1, r2, r3, Option.bind_some]
            by_cases c2 : c (m (root * 2 + 1)) (m (root * 2 + 1 + 1)) > 0
            · have c2' := hc.total _ _ ne2 (by omega)
              refine ⟨_, by rw [if_pos c2], Or.inr ⟨by omega, by omega, ?_, ?_⟩⟩
              · exact hc.trans _ _ _ c2' c1'
              · intro ch h1 h2 h3
                have : ch = root * 2 + 1 := by omega
                rw [this]; exact c2'
            · refine ⟨_, by rw [if_neg c2], Or.inr ⟨by omega, by omega, c1', ?_⟩⟩
              intro ch h1 h2 h3
              have : ch = root * 2 + 1 + 1 := by omega
              rw [this]; omega
          · refine ⟨_, by rw [if_neg hch2, if_pos c1], Or.inr ⟨by omega, by omega, c1', ?_⟩⟩
            intro ch h1 h2 h3; omega
        · by_cases hch2 : root * 2 + 1 + 1 ≤ e
          · have r3 : rd n m (root * 2 + 1 + 1) = some (m (root * 2 + 1 + 1)) := by
              rw [rd, if_pos (by omega)]
            have ne2 : m root ≠ m (root * 2 + 1 + 1) := by
              intro h; have := hinj _ _ (by omega) (by omega) (by omega) (by omega) h; omega
            simp only [if_pos hch2, if_neg c1, r1, r3, Option.bind_some]
            by_cases c2 : c (m root) (m (root * 2 + 1 + 1)) > 0
            · have c2' := hc.total _ _ ne2 (by omega)
              refine ⟨_, by rw [if_pos c2], Or.inr ⟨by omega, by omega, c2', ?_⟩⟩
              intro ch h1 h2 h3
              have : ch = root * 2 + 1 := by omega
              rw [this]
              exact hc.trans _ _ _ c2' (by omega)
            · refine ⟨_, by rw [if_neg c2], Or.inl ⟨rfl, ?_⟩⟩
              intro ch h1 h2
              rcases h1 with h1 | h1
              · have : ch = root * 2 + 1 := by omega
                rw [this]; omega
              · have : ch = root * 2 + 1 + 1 := by omega
                rw [this]; omega
          · refine ⟨_, by rw [if_neg hch2, if_neg c1], Or.inl ⟨rfl, ?_⟩⟩
            intro ch h1 h2
            have : ch = root * 2 + 1 := by omega
            rw [this]; omega
      rw [siftDown]
      simp only [if_pos hch, r1, r2, Option.bind_some, hs2]
      rcases hbest with ⟨h1, h2⟩ | ⟨h1, h2, h3, h4⟩
      · refine ⟨m, by rw [if_pos h1], PermOn.refl _ _ _, ?_⟩
        intro i hi
        by_cases hir : i = root
        · rw [hir]; exact h2
        · exact hok i hi hir
      · rw [if_neg (by omega)]
        obtain ⟨m1, t1, t2, t3⟩ := swap_spec (n := n) (m := m) (i := root) (j := s2) (lo := start)
          (hi := e) (by omega) (by omega) (by omega) (by omega)
        rw [t1]
        have m1r : m1 root = m s2 := by rw [t3, if_pos rfl]
        have m1s : m1 s2 = m root := by rw [t3, if_neg (by omega), if_pos rfl]
        have m1o : ∀ k, k ≠ root → k ≠ s2 → m1 k = m k := by
          intro k k1 k2; rw [t3, if_neg k1, if_neg k2]
        have hinj1 : ∀ i j : Int, 0 ≤ i → i ≤ e → 0 ≤ j → j ≤ e → m1 i = m1 j → i = j := by
          intro i j i1 i2 j1 j2 hij
          rw [t3, t3] at hij
          by_cases a1 : i = root <;> by_cases a2 : i = s2 <;> by_cases b1 : j = root <;>
            by_cases b2 : j = s2 <;> simp only [a1, a2, b1, b2, if_true, if_false] at hij <;>
            first
            | omega
            | (split at hij <;> first
                | omega
                | (have := hinj _ _ (by omega) (by omega) (by omega) (by omega) hij; omega)
                | (split at hij <;>
                   (have := hinj _ _ (by omega) (by omega) (by omega) (by omega) hij; omega)))
            | (have := hinj _ _ (by omega) (by omega) (by omega) (by omega) hij; omega)
        obtain ⟨m2, u1, u2, u3⟩ := ih s2 m1 (by omega) (by omega) hinj1
          (by
            intro i hi his ch hch1 hch2
            by_cases hir : i = root
            · subst hir
              rw [m1r]
              by_cases hcs : ch = s2
              · rw [hcs, m1s]; exact h3
              · rw [m1o ch (by omega) hcs]; exact h4 ch hch1 hch2 hcs
            · rw [m1o i hir his]
              by_cases hcr : ch = root
              · rw [hcr, m1r]
                exact hpar i hi (by omega) s2 (by omega) h2
              · rw [m1o ch hcr (by omega)]
                exact hok i hi hir ch hch1 hch2)
          (by
            intro i hi his ch hch1 hch2
            have : i = root := by omega
            rw [this, m1r, m1o ch (by omega) (by omega)]
            exact hok s2 (by omega) (by omega) ch hch1 hch2)
        exact ⟨m2, u1, t2.trans u2, u3⟩
    · rw [siftDown, if_neg hch]
      refine ⟨m, rfl, PermOn.refl _ _ _, ?_⟩
      intro i hi
      by_cases hir : i = root
      · intro ch h1 h2; omega
      · exact hok i hi hir

theorem PermOn.inj' {lo hi e : Int} {m0 m : Mem} (h : PermOn lo hi m0 m) (hlo : 0 ≤ lo)
    (hhi : hi ≤ e)
    (hinj : ∀ i j : Int, 0 ≤ i → i ≤ e → 0 ≤ j → j ≤ e → m0 i = m0 j → i = j) (i j : Int)
    (h1 : 0 ≤ i) (h2 : i ≤ e) (h3 : 0 ≤ j) (h4 : j ≤ e) (he : m i = m j) : i = j := by
  obtain ⟨s, a, b⟩ := h.mono (lo' := 0) (hi' := e) hlo hhi
  have q1 := perm_inside b (k := i) ⟨h1, h2⟩
  have q2 := perm_inside b (k := j) ⟨h3, h4⟩
  rw [a, a] at he
  exact s.injective (hinj _ _ q1.1 q1.2 q2.1 q2.2 he)

theorem makeHeap_loop {n : Int} {c : Nat → Nat → Int} (hc : StrictTotal c) (k : Nat)
    (hk : (k : Int) ≤ n) (t : Nat) : ∀ m : Mem,
    (∀ i j : Int, 0 ≤ i → i ≤ (k : Int) - 1 → 0 ≤ j → j ≤ (k : Int) - 1 → m i = m j → i = j) →
    (∀ i, (t : Int) ≤ i → NodeOk c ((k : Int) - 1) m i) →
    ∃ m', (List.range t).reverse.foldlM
        (fun m (start : Nat) => siftDown n c ((k : Int) - 1) (k + 1) start m) m = some m' ∧
      PermOn 0 ((k : Int) - 1) m m' ∧ ∀ i, 0 ≤ i → NodeOk c ((k : Int) - 1) m' i := by
  induction t with
  | zero => intro m _ h; exact ⟨m, rfl, PermOn.refl _ _ _, fun i hi => h i (by simpa using hi)⟩
  | succ t ih =>
    intro m hinj h
    rw [List.range_succ, List.reverse_append]
    simp only [List.reverse_singleton, List.singleton_append, List.foldlM_cons]
    obtain ⟨m1, a1, a2, a3⟩ := siftDown_spec (n := n) hc (e := (k : Int) - 1) (by omega) (t : Int)
      (by omega) (k + 1) (t : Int) m (le_refl _) (by omega) hinj
      (by intro i h1 h2; exact h i (by push_cast; omega)) (by intro i h1 h2; omega)
    obtain ⟨m2, b1, b2, b3⟩ := ih m1 (a2.inj' (by omega) (le_refl _) hinj) a3
    refine ⟨m2, ?_, (a2.mono (by omega) (le_refl _)).trans b2, b3⟩
    rw [a1]; exact b1

theorem makeHeap_spec {n : Int} {c : Nat → Nat → Int} (hc : StrictTotal c) (k : Nat)
    (hk : (k : Int) ≤ n) (m : Mem)
    (hinj : ∀ i j : Int, 0 ≤ i → i ≤ (k : Int) - 1 → 0 ≤ j → j ≤ (k : Int) - 1 → m i = m j → i = j) :
    ∃ m', makeHeap n c k m = some m' ∧ PermOn 0 ((k : Int) - 1) m m' ∧
      ∀ i, 0 ≤ i → NodeOk c ((k : Int) - 1) m' i := by
  apply makeHeap_loop hc k hk (k / 2) m hinj
  intro i hi ch h1 h2
  omega

/-- The root of a heap comes first. -/
theorem heap_root {c : Nat → Nat → Int} (hc : StrictTotal c) {e : Int} {m : Mem}
    (h : ∀ i, 0 ≤ i → NodeOk c e m i) (j : Nat) : 0 < j → (j : Int) ≤ e → c (m 0) (m j) ≤ 0 := by
  induction j using Nat.strongRecOn with
  | ind j ih =>
    intro h0 he
    have hp := h (((j - 1) / 2 : Nat) : Int) (by omega) (j : Int) (by omega) he
    by_cases hz : (j - 1) / 2 = 0
    · rw [hz] at hp; simpa using hp
    · exact hc.trans _ _ _ (ih ((j - 1) / 2) (by omega) (by omega) (by omega)) hp

/-- Selection loop invariant after the entries below `i` have been seen. -/
structure SelInv {α : Type} [LinearOrder α] (asc : Bool) (v : Nat → α) (n k i : Nat) (m0 m : Mem) :
    Prop where
  perm : PermOn 0 ((i : Int) - 1) m0 m
  heap : ∀ j, 0 ≤ j → NodeOk (cmp (!asc) v) ((k : Int) - 1) m j
  best : ∀ a b : Int, 0 ≤ a → a < k → (k : Int) ≤ b → b < i →
    if asc then v (m a) ≤ v (m b) else v (m b) ≤ v (m a)

theorem root_worst {α : Type} [LinearOrder α] {asc : Bool} {v : Nat → α} {k : Nat} {m : Mem}
    (h : ∀ j, 0 ≤ j → NodeOk (cmp (!asc) v) ((k : Int) - 1) m j) (a : Int) (ha : 0 ≤ a)
    (hk : a < k) : if asc then v (m a) ≤ v (m 0) else v (m 0) ≤ v (m a) := by
  by_cases h0 : a = 0
  · subst h0; cases asc <;> simp
  · have := heap_root (cmp_strictTotal (!asc) v) h a.toNat (by omega) (by omega)
    have e : ((a.toNat : Nat) : Int) = a := by omega
    rw [e, cmp_le_iff] at this
    cases asc <;> simp at this ⊢ <;> rcases this with h | ⟨h, _⟩ <;> order

theorem selection {α : Type} [LinearOrder α] (asc : Bool) (v : Nat → α) (n k : Nat) (hk : 0 < k)
    (m0 : Mem) (h0 : ∀ x : Int, 0 ≤ x → x < n → m0 x = x.toNat) (t : Nat) : ∀ (i : Nat) (m : Mem), k ≤ i → i + t = n →
    SelInv asc v n k i m0 m →
    ∃ m', (List.range' i t).foldlM (topKStep n (cmp (!asc) v) (cmp asc v) k) m = some m' ∧
      SelInv asc v n k n m0 m' := by
  induction t with
  | zero => intro i m _ h inv; exact ⟨m, rfl, by simpa [← h] using inv⟩
  | succ t ih =>
    intro i m hki hit inv
    rw [List.range'_succ, List.foldlM_cons]
    have hinj : ∀ x y : Int, 0 ≤ x → x ≤ (n : Int) - 1 → 0 ≤ y → y ≤ (n : Int) - 1 →
        m x = m y → x = y :=
      inv.perm.inj' (e := (n : Int) - 1) (le_refl 0) (by omega) (by
        intro x y x1 x2 y1 y2 h; rw [h0 x x1 (by omega), h0 y y1 (by omega)] at h; omega)
    have hmi : m i = i := by
      rw [inv.perm.outside (k := (i : Int)) (by omega), h0 _ (by omega) (by omega)]; simp
    have r1 : rd n m i = some (m i) := by rw [rd, if_pos (by omega)]
    have r0 : rd n m 0 = some (m 0) := by rw [rd, if_pos (by omega)]
    -- one step
    obtain ⟨m1, hm1, inv1⟩ : ∃ m1, topKStep n (cmp (!asc) v) (cmp asc v) k m i = some m1 ∧
        SelInv asc v n k (i + 1) m0 m1 := by
      unfold topKStep
      rw [r1, r0]
      simp only [Option.bind_some]
      have hroot := root_worst inv.heap
      have hm0 : m 0 < i := by
        obtain ⟨k', q1, q2, q3⟩ := inv.perm.inside (k := 0) (by omega)
        rw [q3, h0 _ q1 (by omega)]; omega
      by_cases hc : cmp asc v (m i) (m 0) < 0
      · rw [if_pos hc]
        obtain ⟨m2, t1, t2, t3⟩ := swap_spec (n := n) (m := m) (i := 0) (j := i) (lo := 0)
          (hi := i) (by omega) (by omega) (by omega) (by omega)
        rw [t1]
        have hinj2 : ∀ x y : Int, 0 ≤ x → x ≤ (k : Int) - 1 → 0 ≤ y → y ≤ (k : Int) - 1 →
            m2 x = m2 y → x = y := by
          intro x y x1 x2 y1 y2 hxy
          exact t2.inj' (e := (n : Int) - 1) (le_refl 0) (by omega) hinj x y x1 (by omega) y1
            (by omega) hxy
        obtain ⟨m3, u1, u2, u3⟩ := siftDown_spec (n := n) (cmp_strictTotal (!asc) v)
          (e := (k : Int) - 1) (by omega) 0 (le_refl 0) (k + 1) 0 m2 (le_refl 0) (by omega) hinj2
          (by
            intro j hj hj0 ch h1 h2
            rw [t3, if_neg hj0, if_neg (by omega), t3, if_neg (by omega), if_neg (by omega)]
            exact inv.heap j hj ch h1 h2)
          (by intro j hj h; omega)
        refine ⟨m3, u1, ?_, u3, ?_⟩
        · have p1 : PermOn 0 (((i + 1 : Nat) : Int) - 1) m0 m :=
            inv.perm.mono (le_refl 0) (by push_cast; omega)
          exact p1.trans ((t2.mono (le_refl 0) (by push_cast; omega)).trans
            (u2.mono (le_refl 0) (by push_cast; omega)))
        · intro a b ha hak hb hbi
          -- m3 a is m2 a' with a' in the heap, m3 b = m2 b
          obtain ⟨a', a1, a2, a3⟩ := u2.inside (k := a) (by omega)
          have hb3 : m3 b = m2 b := u2.outside (by omega)
          rw [a3, hb3]
          have hval : cmp asc v (m i) (m 0) ≤ 0 := by omega
          rw [cmp_le_iff, hmi] at hval
          -- values: new entry strictly better than old root
          have hstrict : if asc then v i < v (m 0) else v (m 0) < v i := by
            rcases hval with h | ⟨_, h⟩
            · cases asc <;> simpa using h
            · omega
          have hA : if asc then v (m2 a') ≤ v (m 0) else v (m 0) ≤ v (m2 a') := by
            by_cases hz : a' = 0
            · have e1 : m2 a' = i := by rw [t3, if_pos hz, hmi]
              rw [e1]
              cases asc <;> simp at hstrict ⊢ <;> exact le_of_lt hstrict
            · have e1 : m2 a' = m a' := by rw [t3, if_neg hz, if_neg (by omega)]
              rw [e1]
              exact hroot a' a1 (by omega)
          have hB : if asc then v (m 0) ≤ v (m2 b) else v (m2 b) ≤ v (m 0) := by
            by_cases hz : b = i
            · have e1 : m2 b = m 0 := by rw [t3, if_neg (by omega), if_pos hz]
              rw [e1]; cases asc <;> simp
            · have e1 : m2 b = m b := by rw [t3, if_neg (by omega), if_neg hz]
              rw [e1]
              exact inv.best 0 b (le_refl 0) (by omega) hb (by push_cast at hbi; omega)
          cases asc <;> simp at hA hB ⊢ <;> order
      · rw [if_neg hc]
        refine ⟨m, rfl, inv.perm.mono (le_refl 0) (by push_cast; omega), inv.heap, ?_⟩
        intro a b ha hak hb hbi
        by_cases hbi' : b = i
        · subst hbi'
          rw [hmi]
          have h1 := hroot a ha hak
          have h2 : ¬ cmp asc v i (m 0) ≤ 0 := by
            rw [hmi] at hc
            intro h
            have h3 : cmp asc v i (m 0) = -1 ∨ cmp asc v i (m 0) = 1 := by
              unfold cmp
              by_cases g : (if asc then v i < v (m 0) else v i > v (m 0)) ∨
                (v i = v (m 0) ∧ i < m 0)
              · rw [if_pos g]; exact Or.inl rfl
              · rw [if_neg g]; exact Or.inr rfl
            omega
          rw [cmp_le_iff, not_or] at h2
          have h2 := h2.1
          cases asc <;> simp at h1 h2 ⊢ <;> order
        · exact inv.best a b ha hak hb (by push_cast at hbi; omega)
    obtain ⟨m2, hm2, inv2⟩ := ih (i + 1) m1 (by omega) (by omega) inv1
    refine ⟨m2, ?_, inv2⟩
    rw [hm1]; exact hm2

end Verif.Runtime.Sort
