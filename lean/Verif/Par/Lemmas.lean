import Verif.Par.Model
import Mathlib.Tactic.Ring
import Mathlib.Tactic.Linarith

namespace Verif.Par

variable {W : Type}

/-! ## Tiles -/

theorem tile_bounds (n T t : Nat) (ht : t < T) : (tile n T t).1 ≤ (tile n T t).2 ∧
    (tile n T t).2 ≤ n := by
  have hd : T * (n / T) + n % T = n := Nat.div_add_mod n T
  have hm : n % T < T := Nat.mod_lt _ (by omega)
  unfold tile
  simp only
  generalize n / T = q at *
  generalize n % T = r at *
  split
  · rename_i h
    refine ⟨by simp, ?_⟩
    simp only
    have h1 : (t + 1) * (q + 1) ≤ r * (q + 1) := Nat.mul_le_mul_right _ h
    have h2 : r * (q + 1) = r * q + r := by ring
    have h3 : r * q ≤ T * q := Nat.mul_le_mul_right _ (by omega)
    have h4 : (t + 1) * (q + 1) = t * (q + 1) + (q + 1) := by ring
    omega
  · refine ⟨by simp, ?_⟩
    simp only
    have h1 : (t + 1) * q ≤ T * q := Nat.mul_le_mul_right _ ht
    have h4 : (t + 1) * q = t * q + q := by ring
    omega

/-- Every element below `n` lies in the tile of some worker. -/
theorem tile_cover (n T k : Nat) (hT : 0 < T) (hk : k < n) :
    ∃ t, t < T ∧ (tile n T t).1 ≤ k ∧ k < (tile n T t).2 := by
  have hd : T * (n / T) + n % T = n := Nat.div_add_mod n T
  have hm : n % T < T := Nat.mod_lt _ hT
  unfold tile
  simp only
  generalize n / T = q at *
  generalize n % T = r at *
  by_cases hc : k < r * (q + 1)
  · have ht : k / (q + 1) < r := (Nat.div_lt_iff_lt_mul (by omega)).2 hc
    refine ⟨k / (q + 1), by omega, ?_⟩
    rw [if_pos ht]
    have h1 : (q + 1) * (k / (q + 1)) + k % (q + 1) = k := Nat.div_add_mod k (q + 1)
    have h2 : k % (q + 1) < q + 1 := Nat.mod_lt _ (by omega)
    have h3 : (q + 1) * (k / (q + 1)) = k / (q + 1) * (q + 1) := Nat.mul_comm _ _
    simp only
    omega
  · have hrk : r * (q + 1) = r * q + r := by ring
    have hq : 0 < q := by
      rcases Nat.eq_zero_or_pos q with h0 | h0
      · subst h0; simp at hd hc; omega
      · exact h0
    have h1 : q * ((k - r) / q) + (k - r) % q = k - r := Nat.div_add_mod (k - r) q
    have h2 : (k - r) % q < q := Nat.mod_lt _ hq
    have h3 : q * ((k - r) / q) = (k - r) / q * q := Nat.mul_comm _ _
    have h4 : r ≤ (k - r) / q := (Nat.le_div_iff_mul_le hq).2 (by omega)
    have h5 : (k - r) / q < T := (Nat.div_lt_iff_lt_mul hq).2 (by omega)
    refine ⟨(k - r) / q, h5, ?_⟩
    rw [if_neg (by omega)]
    simp only
    omega

/-- Consecutive tiles touch. -/
theorem tile_succ (n T t : Nat) (ht : t + 1 < T) : (tile n T t).2 = (tile n T (t + 1)).1 := by
  have hm : n % T < T := Nat.mod_lt _ (by omega)
  unfold tile
  simp only
  generalize n / T = q at *
  generalize n % T = r at *
  split
  · split
    · simp only; ring
    · rename_i h1 h2
      have : r = t + 1 := by omega
      subst this
      simp only; ring
  · rw [if_neg (by omega)]
    simp only; ring

theorem tile_mono (n T : Nat) {t u : Nat} (h : t < u) (hu : u < T) :
    (tile n T t).2 ≤ (tile n T u).1 := by
  induction u with
  | zero => omega
  | succ u ih =>
    rcases Nat.lt_or_ge t u with h1 | h1
    · have := ih h1 (by omega)
      have h2 := (tile_bounds n T u (by omega)).1
      have h3 := tile_succ n T u hu
      omega
    · have : t = u := by omega
      subst this
      rw [tile_succ n T t hu]

theorem tile_unique (n T k : Nat) {t u : Nat} (ht : t < T) (hu : u < T)
    (h1 : (tile n T t).1 ≤ k ∧ k < (tile n T t).2) (h2 : (tile n T u).1 ≤ k ∧ k < (tile n T u).2) :
    t = u := by
  rcases Nat.lt_trichotomy t u with h | h | h
  · have := tile_mono n T h hu; omega
  · exact h
  · have := tile_mono n T h ht; omega

theorem mem_tileItems (n T t k : Nat) :
    k ∈ tileItems n T t ↔ (tile n T t).1 ≤ k ∧ k < (tile n T t).2 := by
  unfold tileItems
  simp only [List.mem_range'_1]
  omega

theorem nodup_tileItems (n T t : Nat) : (tileItems n T t).Nodup := List.nodup_range'

/-! ## Non-interference -/

/-- Steps of thread `t` alone. -/
def alone (s : St W) (t n : Nat) : St W := run s (List.replicate n t)

theorem alone_succ (s : St W) (t n : Nat) : alone s t (n + 1) = step (alone s t n) t := by
  unfold alone run
  rw [List.replicate_succ', List.foldl_append]
  rfl

theorem step_todo_ne (s : St W) {t u : Nat} (h : u ≠ t) : (step s t).todo u = s.todo u := by
  unfold step
  split <;> simp [h]

theorem step_reg_ne (s : St W) {t u : Nat} (h : u ≠ t) : (step s t).reg u = s.reg u := by
  unfold step
  split <;> simp [h]

theorem step_mem_notin (s : St W) {t c : Nat} (h : ∀ a ∈ s.todo t, a.cell ≠ c) :
    (step s t).mem c = s.mem c := by
  unfold step
  split
  · rfl
  · rfl
  · rename_i k g rest heq
    have : k ≠ c := h (.store k g) (by rw [heq]; simp)
    simp [Ne.symm this]

theorem step_todo_sub (s : St W) (t u : Nat) : ∀ a ∈ (step s t).todo u, a ∈ s.todo u := by
  intro a ha
  unfold step at ha
  split at ha
  · exact ha
  · rename_i k rest heq
    by_cases hu : u = t
    · subst hu; rw [heq]; simp at ha; simp [ha]
    · simpa [hu] using ha
  · rename_i k g rest heq
    by_cases hu : u = t
    · subst hu; rw [heq]; simp at ha; simp [ha]
    · simpa [hu] using ha

theorem run_todo_sub (s : St W) (sched : List Nat) (u : Nat) :
    ∀ a ∈ (run s sched).todo u, a ∈ s.todo u := by
  induction sched generalizing s with
  | nil => exact fun a h => h
  | cons t sched ih => exact fun a h => step_todo_sub s t u a (ih (step s t) a h)

/-- The cells of different threads are disjoint. -/
def Disjoint' (s : St W) : Prop :=
  ∀ t u, t ≠ u → ∀ a ∈ s.todo t, ∀ b ∈ s.todo u, a.cell ≠ b.cell

theorem run_append (s : St W) (a b : List Nat) : run s (a ++ b) = run (run s a) b := by
  unfold run; rw [List.foldl_append]

/-- One step of `t` depends only on the register, the remaining accesses and the cells of `t`. -/
theorem step_local {s s' : St W} {t : Nat} (h1 : s.reg t = s'.reg t) (h2 : s.todo t = s'.todo t)
    (C : Nat → Prop) (h3 : ∀ c, C c → s.mem c = s'.mem c) (h4 : ∀ a ∈ s.todo t, C a.cell) :
    (step s t).reg t = (step s' t).reg t ∧ (step s t).todo t = (step s' t).todo t ∧
      ∀ c, C c → (step s t).mem c = (step s' t).mem c := by
  unfold step
  cases hs : s.todo t with
  | nil =>
    rw [hs] at h2
    rw [← h2]
    exact ⟨h1, by simp [hs, ← h2], h3⟩
  | cons a rest =>
    rw [hs] at h2
    rw [← h2]
    cases a with
    | load k =>
      refine ⟨?_, by simp, h3⟩
      simp only [if_true]
      exact h3 k (h4 (.load k) (by rw [hs]; simp))
    | store k g =>
      refine ⟨h1, by simp, ?_⟩
      intro c hc
      simp only [h1]
      split
      · rfl
      · exact h3 c hc

/-- A thread sees the same as if it ran alone. -/
theorem noninterference (s : St W) (hd : Disjoint' s) (sched : List Nat) (t : Nat) :
    (run s sched).reg t = (alone s t (sched.count t)).reg t ∧
    (run s sched).todo t = (alone s t (sched.count t)).todo t ∧
    ∀ c, (∃ a ∈ s.todo t, a.cell = c) →
      (run s sched).mem c = (alone s t (sched.count t)).mem c := by
  induction sched using List.reverseRecOn with
  | nil => simp [alone, run]
  | append_singleton sched u ih =>
    rw [run_append]
    show (step (run s sched) u).reg t = _ ∧ (step (run s sched) u).todo t = _ ∧ _
    obtain ⟨i1, i2, i3⟩ := ih
    by_cases hu : u = t
    · subst hu
      have hcount : (sched ++ [u]).count u = sched.count u + 1 := by simp
      rw [hcount, alone_succ]
      exact step_local i1 i2 (fun c => ∃ a ∈ s.todo u, a.cell = c) i3
        (fun a ha => ⟨a, run_todo_sub s sched u a ha, rfl⟩)
    · have hcount : (sched ++ [u]).count t = sched.count t := by
        rw [List.count_append]
        simp [hu]
      rw [hcount, step_reg_ne _ (Ne.symm hu), step_todo_ne _ (Ne.symm hu)]
      refine ⟨i1, i2, fun c hc => ?_⟩
      obtain ⟨a, ha, rfl⟩ := hc
      show (step (run s sched) u).mem a.cell = _
      rw [step_mem_notin, i3 _ ⟨a, ha, rfl⟩]
      intro b hb
      exact hd u t hu b (run_todo_sub s sched u b hb) a ha

/-- Cells of no thread never change. -/
theorem untouched (s : St W) (sched : List Nat) (c : Nat) (h : ∀ t, ∀ a ∈ s.todo t, a.cell ≠ c) :
    (run s sched).mem c = s.mem c := by
  induction sched using List.reverseRecOn with
  | nil => rfl
  | append_singleton sched u ih =>
    rw [run_append]
    show (step (run s sched) u).mem c = _
    rw [step_mem_notin, ih]
    exact fun a ha => h u a (run_todo_sub s sched u a ha)

/-! ## Running alone to the end -/

/-- The effect of a list of accesses on memory and register. -/
def exec (mem : Nat → W) (r : W) : List (Acc W) → (Nat → W) × W
  | [] => (mem, r)
  | .load k :: as => exec mem (mem k) as
  | .store k g :: as => exec (fun c => if c = k then g r else mem c) r as

theorem alone_exec (s : St W) (t n : Nat) (h : (alone s t n).todo t = []) :
    (alone s t n).mem = (exec s.mem (s.reg t) (s.todo t)).1 := by
  induction n generalizing s with
  | zero =>
    have h0 : s.todo t = [] := h
    rw [h0]; rfl
  | succ n ih =>
    have hs : alone s t (n + 1) = alone (step s t) t n := by
      unfold alone run
      rw [List.replicate_succ, List.foldl_cons]
    rw [hs] at h ⊢
    rw [ih (step s t) h]
    unfold step
    cases hs : s.todo t with
    | nil => simp [hs, exec]
    | cons a rest => cases a <;> simp [exec]

theorem exec_append (mem : Nat → W) (r : W) (as bs : List (Acc W)) :
    exec mem r (as ++ bs) = exec (exec mem r as).1 (exec mem r as).2 bs := by
  induction as generalizing mem r with
  | nil => rfl
  | cons a as ih => cases a <;> exact ih _ _

theorem exec_other (mem : Nat → W) (r : W) (as : List (Acc W)) (c : Nat)
    (h : ∀ a ∈ as, a.cell ≠ c) : (exec mem r as).1 c = mem c := by
  induction as generalizing mem r with
  | nil => rfl
  | cons a as ih =>
    cases a with
    | load k => exact ih _ _ fun a ha => h a (by simp [ha])
    | store k g =>
      show (exec _ r as).1 c = _
      rw [ih _ _ fun a ha => h a (by simp [ha])]
      have : k ≠ c := h (.store k g) (by simp)
      simp [Ne.symm this]

/-- Items handled one after the other, each by a program on its own cell. -/
theorem exec_items (body : Nat → List (Acc W)) (res : Nat → W → W)
    (hcell : ∀ k, ∀ a ∈ body k, a.cell = k)
    (hres : ∀ k mem r, (exec mem r (body k)).1 k = res k (mem k))
    (items : List Nat) (hnd : items.Nodup) (mem : Nat → W) (r : W) :
    ∀ k ∈ items, (exec mem r (items.flatMap body)).1 k = res k (mem k) := by
  induction items generalizing mem r with
  | nil => simp
  | cons i items ih =>
    rw [List.nodup_cons] at hnd
    intro k hk
    rw [List.flatMap_cons, exec_append]
    rcases List.mem_cons.1 hk with rfl | hk
    · rw [exec_other _ _ _ _ (fun a ha => by
        obtain ⟨j, hj, ha⟩ := List.mem_flatMap.1 ha
        rw [hcell j a ha]
        rintro rfl
        exact hnd.1 hj), hres]
    · rw [ih hnd.2 _ _ k hk, exec_other _ _ _ _ (fun a ha => by
        rw [hcell i a ha]
        rintro rfl
        exact hnd.1 hk)]

theorem exec_transform (f : W → W) (k : Nat) (mem : Nat → W) (r : W) :
    (exec mem r [Acc.load k, Acc.store k f]).1 k = f (mem k) := by
  simp [exec]

theorem exec_reduce_tail (red : W → W → W) (k : Nat) (xs : List W) (mem : Nat → W) (r : W) :
    (exec mem r (xs.flatMap fun x => [Acc.load k, Acc.store k fun d => red d x])).1 k =
      xs.foldl red (mem k) := by
  induction xs generalizing mem r with
  | nil => rfl
  | cons x xs ih =>
    rw [List.flatMap_cons, exec_append, ih]
    simp [exec]

theorem exec_reduce (red : W → W → W) (k : Nat) (first : W) (rest : List W) (mem : Nat → W) (r : W) :
    (exec mem r (reduceBody red k first rest)).1 k = rest.foldl red first := by
  unfold reduceBody
  rw [exec, exec_reduce_tail]
  simp

/-- The general result: items of the tiles, each with a program on its own cell. -/
theorem parallel_items (n T : Nat) (hT : 0 < T) (body : Nat → List (Acc W)) (res : Nat → W → W)
    (hcell : ∀ k, ∀ a ∈ body k, a.cell = k)
    (hres : ∀ k mem r, (exec mem r (body k)).1 k = res k (mem k))
    (hne : ∀ k, body k ≠ []) (mem reg : Nat → W) (sched : List Nat)
    (hdone : (run (start mem reg T fun t => (tileItems n T t).flatMap body) sched).done) (k : Nat) :
    (run (start mem reg T fun t => (tileItems n T t).flatMap body) sched).mem k =
      if k < n then res k (mem k) else mem k := by
  set s := start mem reg T fun t => (tileItems n T t).flatMap body with hs
  have htodo : ∀ t, t < T → s.todo t = (tileItems n T t).flatMap body := fun t ht => by
    simp [hs, start, ht]
  have hcells : ∀ t, ∀ a ∈ s.todo t, t < T ∧ a.cell ∈ tileItems n T t := by
    intro t a ha
    by_cases ht : t < T
    · rw [htodo t ht] at ha
      obtain ⟨j, hj, ha⟩ := List.mem_flatMap.1 ha
      rw [hcell j a ha]
      exact ⟨ht, hj⟩
    · simp [hs, start, ht] at ha
  have hd : Disjoint' s := by
    intro t u htu a ha b hb heq
    obtain ⟨h1, h2⟩ := hcells t a ha
    obtain ⟨h3, h4⟩ := hcells u b hb
    rw [heq] at h2
    exact htu (tile_unique n T _ h1 h3 ((mem_tileItems ..).1 h2) ((mem_tileItems ..).1 h4))
  by_cases hk : k < n
  · rw [if_pos hk]
    obtain ⟨t, ht, htile⟩ := tile_cover n T k hT hk
    have hmem := (mem_tileItems n T t k).2 htile
    obtain ⟨a, ha⟩ := List.exists_mem_of_ne_nil _ (hne k)
    obtain ⟨-, n2, n3⟩ := noninterference s hd sched t
    have hfin : (alone s t (sched.count t)).todo t = [] := by rw [← n2]; exact hdone t
    rw [n3 k ⟨a, by rw [htodo t ht]; exact List.mem_flatMap.2 ⟨k, hmem, ha⟩, hcell k a ha⟩,
      alone_exec s t _ hfin, htodo t ht]
    exact exec_items body res hcell hres _ (nodup_tileItems n T t) mem _ k hmem
  · rw [if_neg hk]
    exact untouched s sched k (fun t a ha => by
      obtain ⟨h1, h2⟩ := hcells t a ha
      rintro rfl
      have := (mem_tileItems n T t a.cell).1 h2
      have := (tile_bounds n T t h1).2
      omega)

/-- Some schedule finishes: run the workers one after the other. -/
theorem finishes (s : St W) (T : Nat) (h : ∀ t, T ≤ t → s.todo t = []) :
    ∃ sched, (run s sched).done := by
  have one : ∀ (n : Nat) (s : St W) (t : Nat), (s.todo t).length = n →
      (alone s t n).todo t = [] ∧ ∀ u, u ≠ t → (alone s t n).todo u = s.todo u := by
    intro n
    induction n with
    | zero => intro s t h; exact ⟨List.length_eq_zero_iff.1 h, fun _ _ => rfl⟩
    | succ n ih =>
      intro s t h
      have hs : alone s t (n + 1) = alone (step s t) t n := by
        unfold alone run
        rw [List.replicate_succ, List.foldl_cons]
      obtain ⟨h1, h2⟩ := ih (step s t) t (by
        unfold step
        cases hc : s.todo t with
        | nil => rw [hc] at h; simp at h
        | cons a rest => rw [hc] at h; cases a <;> simpa using h)
      rw [hs]
      exact ⟨h1, fun u hu => by rw [h2 u hu, step_todo_ne _ hu]⟩
  induction T generalizing s with
  | zero => exact ⟨[], fun t => h t (by omega)⟩
  | succ T ih =>
    obtain ⟨h1, h2⟩ := one _ s T rfl
    obtain ⟨sched, hsch⟩ := ih (alone s T (s.todo T).length) (fun t ht => by
      by_cases hc : t = T
      · subst hc; exact h1
      · rw [h2 t hc]; exact h t (by omega))
    exact ⟨List.replicate (s.todo T).length T ++ sched, by rw [run_append]; exact hsch⟩

end Verif.Par
