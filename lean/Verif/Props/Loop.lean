import Verif.Lower.LoopLemmas

/-!
C72: Loop.  C73: Scan.  C74: sequences.
-/

namespace Verif.Props

open Verif.Lower

variable {T : Type*}

/-! ### C72 -/

/-- The ONNX semantics of Loop: from iteration `iv`, condition `c` and values `vs`, the loop ends with
values `fin` and yields `rows` to the scan outputs.  `M` is the maximum trip count. -/
inductive OnnxLoop (b : LoopBody T) (M : Option ℤ) : ℤ → Bool → List T → List T → List (List T) → Prop
  | stop {iv c vs} : (c = false ∨ ∃ m, M = some m ∧ m ≤ iv) → OnnxLoop b M iv c vs vs []
  | step {iv vs vs' row fin rows} : (∀ m, M = some m → iv < m) →
      (b.vals.mapM fun y => y.eval iv true vs) = some vs' → (b.scans.mapM fun y => y.eval iv true vs) = some row →
      OnnxLoop b M (iv + 1) (match b.cond with | none => true | some f => f iv true vs) vs' fin rows →
      OnnxLoop b M iv true vs fin (row :: rows)

/-- Loop is deterministic: there is one result. -/
theorem OnnxLoop.unique {b : LoopBody T} {M : Option ℤ} {iv c vs fin rows fin' rows'}
    (h : OnnxLoop b M iv c vs fin rows) (h' : OnnxLoop b M iv c vs fin' rows') : fin = fin' ∧ rows = rows' := by
  induction h generalizing fin' rows' with
  | stop hs =>
    cases h' with
    | stop _ => exact ⟨rfl, rfl⟩
    | step hm _ _ _ =>
      rcases hs with hs | ⟨m, hs, hle⟩
      · cases hs
      · have := hm m hs; omega
  | step hm h1 h2 h3 ih =>
    cases h' with
    | stop hs =>
      rcases hs with hs | ⟨m, hs, hle⟩
      · cases hs
      · have := hm m hs; omega
    | step _ g1 g2 g3 =>
      rw [h1] at g1; rw [h2] at g2
      cases g1; cases g2
      obtain ⟨a, b⟩ := ih g3
      exact ⟨a, by rw [b]⟩

/-- A body for `n` loop-carried values: it yields `n` of them and refers to existing arguments. -/
def WellFormed (b : LoopBody T) (n : ℕ) : Prop :=
  b.vals.length = n ∧ ∀ y ∈ b.vals ++ b.scans, ∀ i, y = Yield.carried i → i < n

/-- No loop-carried value is an argument that belongs to an earlier loop-carried value: such
an argument would be overwritten before it is copied. -/
def NoOverwrite (vals : List (Yield T)) : Prop := ∀ (k i : ℕ), vals[k]? = some (Yield.carried i) → k ≤ i

theorem eval_exists {b : LoopBody T} {n : ℕ} (h : WellFormed b n) {ys : List (Yield T)} (hy : ∀ y ∈ ys, y ∈ b.vals ++ b.scans)
    (iv : ℤ) (c : Bool) {vs : List T} (hl : vs.length = n) : ∃ r, (ys.mapM fun y => y.eval iv c vs) = some r := by
  induction ys with
  | nil => exact ⟨[], rfl⟩
  | cons y ys ih =>
    obtain ⟨r, hr⟩ := ih fun y hy' => hy y (by simp [hy'])
    have : ∃ t, y.eval iv c vs = some t := by
      cases hyc : y with
      | computed f => exact ⟨_, rfl⟩
      | carried i =>
        have := h.2 y (hy y (by simp)) i hyc
        exact ⟨vs[i]'(by omega), by simp only [Yield.eval]; rw [List.getElem?_eq_getElem]⟩
    obtain ⟨t, ht⟩ := this
    refine ⟨t :: r, ?_⟩
    rw [List.mapM_cons, ht, hr]
    rfl

theorem copyBack_eval {b : LoopBody T} {n : ℕ} (h : WellFormed b n) (hno : NoOverwrite b.vals) {iv : ℤ} {c : Bool}
    {vs vs' : List T} (hl : vs.length = n) (he : (b.vals.mapM fun y => y.eval iv c vs) = some vs') :
    copyBack (b.vals.map fun y => y.run iv c vs) 0 vs = some vs' := by
  refine copyBack_all ?_ (by rw [List.length_map, h.1, hl]) (by rw [readAll_run, he])
  intro k i hk
  rw [List.getElem?_map] at hk
  cases hy : b.vals[k]? with
  | none => simp [hy] at hk
  | some y =>
    rw [hy, Option.map_some, Option.some.injEq] at hk
    cases y with
    | computed f => cases hk
    | carried j => cases hk; exact hno k i hy

theorem loopKrnl_stopped {b : LoopBody T} (L : List ℤ) (vs : List T) (scan : ℤ → Option (List T)) :
    L.foldlM (fun s iv => loopIter b true iv s) (⟨false, vs, scan⟩ : LoopState T) = some ⟨false, vs, scan⟩ := by
  induction L with
  | nil => rfl
  | cons a L ih => rw [List.foldlM_cons]; exact ih

theorem loopKrnl_from {b : LoopBody T} {n : ℕ} (h : WellFormed b n) (hno : NoOverwrite b.vals) :
    ∀ (k : ℕ) (iv : ℤ) (c : Bool) (vs : List T) (scan : ℤ → Option (List T)), vs.length = n →
    ∃ s rows, ((List.range k).map fun (j : ℕ) => iv + (j : ℤ)).foldlM (fun s iv => loopIter b true iv s) ⟨c, vs, scan⟩ = some s ∧
      OnnxLoop b (some (iv + k)) iv c vs s.bufs rows ∧ rows.length ≤ k ∧
      ∀ j : ℤ, s.scan j = if iv ≤ j ∧ j < iv + rows.length then rows[(j - iv).toNat]? else scan j
  | 0, iv, c, vs, scan, _ =>
    ⟨⟨c, vs, scan⟩, [], rfl, .stop (Or.inr ⟨_, rfl, by simp⟩), le_rfl, fun j => by rw [if_neg (by simp)]⟩
  | k + 1, iv, false, vs, scan, hl =>
    ⟨⟨false, vs, scan⟩, [], loopKrnl_stopped _ _ _, .stop (Or.inl rfl), by simp, fun j => by rw [if_neg (by simp)]⟩
  | k + 1, iv, true, vs, scan, hl => by
    obtain ⟨vs', hv⟩ := eval_exists h (ys := b.vals) (fun y hy => by simp [hy]) iv true hl
    obtain ⟨row, hr⟩ := eval_exists h (ys := b.scans) (fun y hy => by simp [hy]) iv true hl
    have hl' : vs'.length = n := by rw [mapM_length hv, h.1]
    obtain ⟨s, rows, e1, e2, e3, e4⟩ := loopKrnl_from h hno k (iv + 1)
      (match b.cond with | none => true | some f => f iv true vs) vs' (writeRow row iv scan) hl'
    refine ⟨s, row :: rows, ?_, ?_, by simp [e3], ?_⟩
    · rw [List.range_succ_eq_map, List.map_cons, List.foldlM_cons, List.map_map]
      have hi : loopIter b true (iv + ((0 : ℕ) : ℤ)) ⟨true, vs, scan⟩ =
          some ⟨match b.cond with | none => true | some f => f iv true vs, vs', writeRow row iv scan⟩ := by
        unfold loopIter
        simp only [if_true, Nat.cast_zero, add_zero]
        rw [readAll_run, hr, Option.bind_some, copyBack_eval h hno hl hv]
        rfl
      rw [hi]
      have hm : ((List.range k).map ((fun (j : ℕ) => iv + (j : ℤ)) ∘ Nat.succ)) =
          (List.range k).map fun (j : ℕ) => iv + 1 + (j : ℤ) := by
        refine List.map_congr_left fun j _ => ?_
        simp only [Function.comp, Nat.succ_eq_add_one, Nat.cast_add, Nat.cast_one]
        omega
      rw [hm]
      exact e1
    · refine .step (fun m hm => ?_) hv hr ?_
      · cases hm; omega
      · have : iv + ((k + 1 : ℕ) : ℤ) = iv + 1 + (k : ℤ) := by push_cast; omega
        rw [this]
        exact e2
    · intro j
      rw [e4 j, List.length_cons]
      push_cast
      by_cases hj : j = iv
      · subst hj
        rw [if_neg (by omega), if_pos (by omega)]
        simp [writeRow]
      · by_cases hj2 : iv + 1 ≤ j ∧ j < iv + 1 + rows.length
        · rw [if_pos hj2, if_pos (by omega)]
          have : (j - iv).toNat = (j - (iv + 1)).toNat + 1 := by omega
          rw [this, List.getElem?_cons_succ]
        · rw [if_neg hj2, if_neg (by omega)]
          simp [writeRow, hj]

/-- The counted loop computes the ONNX semantics, for every trip count and body, provided no loop-carried
value is an argument overwritten before it is copied.  Row `k` of the scan outputs is what iteration `k` yielded. -/
theorem C72_counted_partial (b : LoopBody T) (M : ℤ) (c : Bool) (init : List T) (hw : WellFormed b init.length)
    (hno : NoOverwrite b.vals) :
    ∃ s rows, loopKrnl b M c init = some s ∧ OnnxLoop b (some M) 0 c init s.bufs rows ∧
      ∀ k : ℕ, s.scan k = rows[k]? := by
  cases c with
  | false =>
    refine ⟨⟨false, init, fun _ => none⟩, [], ?_, .stop (Or.inl rfl), fun k => rfl⟩
    unfold loopKrnl
    generalize upto M = L
    induction L with
    | nil => rfl
    | cons a L ih => rw [List.foldlM_cons]; exact ih
  | true =>
    obtain ⟨s, rows, e1, e2, e3, e4⟩ := loopKrnl_from hw hno M.toNat 0 true init (fun _ => none) rfl
    refine ⟨s, rows, ?_, ?_, ?_⟩
    · unfold loopKrnl upto
      have : ((List.range M.toNat).map fun (k : ℕ) => (k : ℤ)) = (List.range M.toNat).map fun (j : ℕ) => (0 : ℤ) + (j : ℤ) := by
        refine List.map_congr_left fun j _ => by omega
      rw [this]
      exact e1
    · rcases le_or_gt M 0 with hM | hM
      · have h0 : M.toNat = 0 := by omega
        rw [h0] at e2 e3
        have : rows = [] := List.length_eq_zero_iff.1 (by omega)
        subst this
        have hb : s.bufs = init := by
          cases e2 with
          | stop _ => rfl
        rw [hb]
        exact .stop (Or.inr ⟨M, rfl, hM⟩)
      · have : (0 : ℤ) + (M.toNat : ℤ) = M := by omega
        rw [this] at e2
        exact e2
    · intro k
      rw [e4 k]
      by_cases hk : k < rows.length
      · rw [if_pos (by omega)]; congr 1
      · rw [if_neg (by omega), List.getElem?_eq_none (by omega)]

/-- A body with two values that breaks when the first one reaches 3. -/
def sumBody : LoopBody ℤ := ⟨some fun _ _ vs => decide (vs.getD 0 0 < 3), [.carried 1, .computed fun iv _ vs => vs.getD 0 0 + vs.getD 1 0 + iv], [.carried 0]⟩

example : WellFormed sumBody 2 ∧ NoOverwrite sumBody.vals ∧
    (loopKrnl sumBody 3 true [1, 1]).map (fun s => (s.bufs, s.scan 0, s.scan 2, s.scan 3)) =
      some ([4, 8], some [1], some [2], none) := by
  refine ⟨⟨rfl, ?_⟩, ?_, by decide +kernel⟩
  · intro y hy i hi
    subst hi
    simp [sumBody] at hy
    omega
  · intro k i h
    match k, h with
    | 0, h => omega
    | 1, h => simp [sumBody] at h
    | k + 2, h => simp [sumBody] at h

/-- A body that yields the previous value of its first argument as second value: the copies
run one after the other, and the second value gets the new first value. -/
theorem C72_overwrite_false : ¬ ∀ (b : LoopBody ℤ) (M : ℤ) (init : List ℤ), WellFormed b init.length → b.cond = none →
    ∃ s rows, loopKrnl b M true init = some s ∧ OnnxLoop b (some M) 0 true init s.bufs rows := by
  intro h
  obtain ⟨s, rows, h1, h2⟩ := h ⟨none, [.computed fun _ _ vs => vs.getD 0 0 + 1, .carried 0], []⟩ 1 [5, 7]
    ⟨rfl, by intro y hy i hi; subst hi; simp at hy; subst hy; decide⟩ rfl
  have e : s.bufs = [6, 6] := by
    have : loopKrnl (⟨none, [.computed fun _ _ vs => vs.getD 0 0 + 1, .carried 0], []⟩ : LoopBody ℤ) 1 true [5, 7] =
        some ⟨true, [6, 6], writeRow [] 0 fun _ => none⟩ := rfl
    rw [this] at h1
    cases h1; rfl
  rw [e] at h2
  have h3 : OnnxLoop (⟨none, [.computed fun _ _ vs => vs.getD 0 0 + 1, .carried 0], []⟩ : LoopBody ℤ) (some 1) 0 true [5, 7]
      [6, 5] [[]] := .step (fun m hm => by cases hm; norm_num) rfl rfl (.stop (Or.inr ⟨1, rfl, by norm_num⟩))
  have := (OnnxLoop.unique h2 h3).1
  exact absurd this (by decide)

/-- The scan outputs are allocated with `M` rows; when the condition is false at the start the loop
yields none of them, so `M` rows were never written. -/
theorem C72_rows_false : ¬ ∀ (b : LoopBody ℤ) (M : ℤ) (c : Bool) (init : List ℤ) (s : LoopState ℤ), WellFormed b init.length →
    b.cond = none → NoOverwrite b.vals → loopKrnl b M c init = some s → ∀ k : ℤ, 0 ≤ k → k < M → s.scan k ≠ none := by
  intro h
  exact h ⟨none, [], [.computed fun _ _ _ => 1]⟩ 2 false [] _ ⟨rfl, by intro y hy i hi; subst hi; simp at hy⟩ rfl
    (by intro k i hk; simp at hk) rfl 0 le_rfl (by norm_num) rfl

/-- The while loop computes the ONNX semantics when the loop makes at least one iteration and
terminates: `fuel` only bounds the model. -/
theorem C72_while_partial (b : LoopBody T) (M : Option ℤ) (c : Bool) (init fin : List T) (rows : List (List T))
    (hw : WellFormed b init.length) (hno : NoOverwrite b.vals) (h : OnnxLoop b M 0 c init fin rows) (hr : rows ≠ []) :
    ∃ N, ∀ fuel ≥ N, loopWhile b M c init fuel = some (some fin) := by
  have cont : ∀ {iv : ℤ}, (∀ m, M = some m → iv < m) →
      (mayRun M iv && true) = true := by
    intro iv hm
    cases M with
    | none => rfl
    | some m => simpa [mayRun] using hm m rfl
  have rest : ∀ {iv c vs fin rows}, OnnxLoop b M iv c vs fin rows → vs.length = init.length →
      ∃ N, ∀ fuel ≥ N, whileRest b M fuel iv c vs = some fin := by
    intro iv c vs fin rows h
    induction h with
    | stop hs =>
      intro _
      refine ⟨1, fun fuel hf => ?_⟩
      obtain ⟨f, rfl⟩ : ∃ f, fuel = f + 1 := ⟨fuel - 1, by omega⟩
      rw [whileRest, if_neg]
      rcases hs with rfl | ⟨m, rfl, hle⟩
      · simp
      · simp [mayRun]; intro; omega
    | step hm h1 h2 h3 ih =>
      intro hl
      obtain ⟨N, hN⟩ := ih (by rw [mapM_length h1, hw.1])
      refine ⟨N + 1, fun fuel hf => ?_⟩
      obtain ⟨f, rfl⟩ : ∃ f, fuel = f + 1 := ⟨fuel - 1, by omega⟩
      rw [whileRest, if_pos (cont hm)]
      simp only
      rw [copyBack_eval hw hno hl h1, Option.bind_some]
      exact hN f (by omega)
  cases h with
  | stop _ => exact absurd rfl hr
  | step hm h1 h2 h3 =>
    obtain ⟨N, hN⟩ := rest h3 (by rw [mapM_length h1, hw.1])
    refine ⟨N, fun fuel hf => ?_⟩
    unfold loopWhile
    rw [if_pos (cont hm)]
    simp only
    unfold firstVals
    rw [readAll_run, h1, Option.bind_some]
    have := hN fuel hf
    rw [zero_add] at this
    exact congrArg (Option.map some) this

/-- A loop that doubles its value until it was 10 or more before an iteration. -/
example : loopWhile (⟨some fun _ _ vs => decide (vs.getD 0 0 < 10), [.computed fun _ _ vs => 2 * vs.getD 0 0], []⟩ : LoopBody ℤ)
    none true [1] 10 = some (some [32]) := by decide +kernel

/-- When the loop makes no iteration, the results are buffers that were never written, and
not the initial values. -/
theorem C72_while_zero_false : ¬ ∀ (b : LoopBody ℤ) (M : Option ℤ) (c : Bool) (init fin : List ℤ) (rows : List (List ℤ)),
    WellFormed b init.length → NoOverwrite b.vals → OnnxLoop b M 0 c init fin rows →
    ∃ N, ∀ fuel ≥ N, loopWhile b M c init fuel = some (some fin) := by
  intro h
  obtain ⟨N, hN⟩ := h ⟨some fun _ _ _ => true, [.carried 0], []⟩ (some 0) true [5] [5] []
    ⟨rfl, by intro y hy i hi; subst hi; simp at hy; subst hy; decide⟩
    (by intro k i hk
        match k, hk with
        | 0, hk => omega
        | k + 1, hk => simp at hk)
    (.stop (Or.inr ⟨0, rfl, le_rfl⟩))
  have := hN N le_rfl
  exact absurd this (by unfold loopWhile mayRun; simp)

/-- Constant bounds: replacing the break condition `counter + step < ub` by a maximum trip
count does not change the results of the loop.  `cnt` is the value of the counter. -/
theorem C72_trip_const (b : LoopBody T) (f : ℤ → Bool → List T → Bool) (hb : b.cond = some f) (cnt : List T → ℤ)
    {maxTrip lb ub step n : ℤ}
    (hcnt : ∀ iv vs vs', (b.vals.mapM fun y => y.eval iv true vs) = some vs' → cnt vs' = cnt vs + step)
    (hf : ∀ iv vs, f iv true vs = decide (cnt vs + step < ub)) {init : List T} (hi : cnt init = lb)
    (hn : tripConst maxTrip lb ub step = some n) (fin : List T) (rows : List (List T)) :
    OnnxLoop b (some maxTrip) 0 true init fin rows ↔ OnnxLoop { b with cond := none } (some n) 0 true init fin rows := by
  unfold tripConst at hn
  split at hn
  · cases hn
  next hg =>
  simp only at hn
  split at hn
  · cases hn
  next hlt =>
  have hn := Option.some.inj hn
  push Not at hg hlt
  obtain ⟨hs, hub⟩ := hg
  have hnn : ∀ k, k < n ↔ k * step < ub - lb := by
    intro k
    rw [← hn]
    exact lt_cdiv hs
  have hlt : n < maxTrip := by omega
  have hn0 : 0 < n := by rw [hnn]; omega
  have key : ∀ (m : ℕ) (iv : ℤ), 0 ≤ iv → iv ≤ n → (n - iv).toNat = m → ∀ vs fin rows, cnt vs = lb + iv * step →
      (OnnxLoop b (some maxTrip) iv (decide (iv < n)) vs fin rows ↔
        OnnxLoop { b with cond := none } (some n) iv true vs fin rows) := by
    intro m
    induction m with
    | zero =>
      intro iv h0 h1 hm vs fin rows _
      have : iv = n := by omega
      subst this
      constructor
      · intro h
        cases hd : decide (iv < iv) with
        | true => simp at hd
        | false =>
          rw [hd] at h
          cases h with
          | stop _ => exact .stop (Or.inr ⟨_, rfl, le_rfl⟩)
      · intro h
        cases h with
        | stop _ => exact .stop (Or.inl (by simp))
        | step hm _ _ _ => have := hm iv rfl; omega
    | succ m ih =>
      intro iv h0 h1 hm vs fin rows hv
      have hlt' : iv < n := by omega
      have hc : ∀ vs, cnt vs = lb + iv * step → f iv true vs = decide (iv + 1 < n) := by
        intro vs hv
        rw [hf, hv]
        congr 1
        rw [hnn, eq_iff_iff]
        constructor <;> intro h <;> nlinarith
      have hd : decide (iv < n) = true := by simpa using hlt'
      rw [hd]
      constructor
      · intro h
        cases h with
        | stop hst =>
          rcases hst with hst | ⟨m, hm, hle⟩
          · cases hst
          · cases hm; omega
        | step hm g1 g2 g3 =>
          refine .step (fun m hm => by cases hm; exact hlt') g1 g2 ?_
          rw [hb] at g3
          simp only [hc vs hv] at g3
          exact (ih (iv + 1) (by omega) (by omega) (by omega) _ _ _ (by rw [hcnt _ _ _ g1, hv]; ring)).1 g3
      · intro h
        cases h with
        | stop hst =>
          rcases hst with hst | ⟨m, hm, hle⟩
          · cases hst
          · cases hm; omega
        | step hm g1 g2 g3 =>
          refine .step (fun m hm => by cases hm; omega) g1 g2 ?_
          rw [hb]
          simp only [hc vs hv]
          exact (ih (iv + 1) (by omega) (by omega) (by omega) _ _ _ (by rw [hcnt _ _ _ g1, hv]; ring)).2 g3
  have := key (n - 0).toNat 0 le_rfl hn0.le rfl init fin rows (by rw [hi]; ring)
  rwa [show decide (0 < n) = true by simpa using hn0] at this

example : tripConst 1000 (-100) 100 3 = some 67 := by decide +kernel

/-- Bounds known at run time: with exact conversions the computed trip count is the one of the constant
case, if the upper bound is above the lower bound and the step is positive. -/
theorem C72_trip_dyn_partial {maxTrip lb ub step n : ℤ} (h : tripConst maxTrip lb ub step = some n) :
    tripDyn (fun x => (x : ℚ)) id maxTrip lb ub step = n := by
  unfold tripConst at h
  split at h
  · cases h
  next hg =>
  simp only at h
  split at h
  · cases h
  next hlt =>
  push Not at hg hlt
  have h := Option.some.inj h
  unfold tripDyn
  have : ⌈id ((fun x : ℤ => (x : ℚ)) (ub - lb) / (fun x : ℤ => (x : ℚ)) step)⌉ = n := by
    rw [← h]
    simp only [id]
    rw [Int.ceil_eq_iff]
    have hs : (0 : ℚ) < (step : ℚ) := by exact_mod_cast hg.1
    have h1 : ub - lb ≤ cdiv (ub - lb) step * step := (cdiv_le hg.1).1 le_rfl
    have h2 : (cdiv (ub - lb) step - 1) * step < ub - lb := (lt_cdiv hg.1).1 (by omega)
    constructor
    · rw [lt_div_iff₀ hs]
      have : (((cdiv (ub - lb) step - 1) * step : ℤ) : ℚ) < ((ub - lb : ℤ) : ℚ) := by exact_mod_cast h2
      push_cast at this ⊢
      exact this
    · rw [div_le_iff₀ hs]
      exact_mod_cast h1
  rw [this]
  omega

/-- With bounds known at run time the upper bound may not be above the lower bound: the loop makes one iteration, since the
condition is computed at its end, and the new trip count is zero. -/
theorem C72_trip_dyn_false : ∃ (maxTrip lb ub step : ℤ), 0 < maxTrip ∧ 0 < step ∧
    tripDyn (fun x => (x : ℚ)) id maxTrip lb ub step = 0 ∧
    ∃ b : LoopBody ℤ, b.cond = some (fun _ _ vs => decide (vs.getD 0 0 + step < ub)) ∧
      b.vals = [.computed fun _ _ vs => vs.getD 0 0 + step] ∧
      OnnxLoop b (some maxTrip) 0 true [lb] [lb + step] [[]] ∧
      OnnxLoop { b with cond := none } (some (tripDyn (fun x => (x : ℚ)) id maxTrip lb ub step)) 0 true [lb] [lb] [] := by
  have e : tripDyn (fun x => (x : ℚ)) id 10 5 5 1 = 0 := by
    unfold tripDyn; simp
  refine ⟨10, 5, 5, 1, by norm_num, by norm_num, e,
    ⟨some (fun _ _ vs => decide (vs.getD 0 0 + 1 < 5)), [.computed fun _ _ vs => vs.getD 0 0 + 1], []⟩, rfl, rfl, ?_, ?_⟩
  · exact .step (fun m hm => by cases hm; norm_num) rfl rfl (.stop (Or.inl (by decide)))
  · rw [e]
    exact .stop (Or.inr ⟨0, rfl, le_rfl⟩)

/-- The trip count goes through single precision, which rounds 2^24 + 1 to 2^24: one iteration
is lost. -/
theorem C72_trip_f32_false (toF32 : ℤ → ℚ) (rnd : ℚ → ℚ) (h1 : toF32 16777217 = 16777216) (h2 : toF32 1 = 1)
    (h3 : rnd 16777216 = 16777216) :
    tripConst 100000000 0 16777217 1 = some 16777217 ∧ tripDyn toF32 rnd 100000000 0 16777217 1 = 16777216 := by
  refine ⟨by decide +kernel, ?_⟩
  unfold tripDyn
  rw [show (16777217 : ℤ) - 0 = 16777217 by norm_num, h1, h2, div_one, h3]
  norm_num

example : ∃ toF32 : ℤ → ℚ, toF32 16777217 = 16777216 ∧ toF32 1 = 1 :=
  ⟨fun x => if x = 16777217 then 16777216 else x, by norm_num, by norm_num⟩

/-! ### C73 -/

/-- The ONNX semantics of Scan: `sls` are the slices of the scan inputs, one list per iteration. -/
def onnxScan (b : ScanBody T) : List T → List (List T) → Option (List T × List (List T))
  | vs, [] => some (vs, [])
  | vs, sl :: sls => (b.vals.mapM fun (y : ScanYield T) => y.eval vs sl).bind fun vs' => (b.scans.mapM fun (y : ScanYield T) => y.eval vs sl).bind fun row =>
      (onnxScan b vs' sls).map fun r => (r.1, row :: r.2)

/-- No state is an argument that belongs to an earlier state, and no scan output is an
argument. -/
def ScanSafe (b : ScanBody T) : Prop :=
  (∀ k i, b.vals[k]? = some (ScanYield.carried i) → k ≤ i) ∧ ∀ y ∈ b.scans, ∀ i, y ≠ ScanYield.carried i

theorem scan_from {b : ScanBody T} (hb : ScanSafe b) {inputs : List (List T)} :
    ∀ (k : ℕ) (base : ℕ) (vs : List T) (sls : List (List T)) (scan : ℤ → Option (List T)) (r : List T × List (List T)),
    vs.length = b.vals.length → sls.length = k → (∀ j (hj : j < sls.length), slicesAt inputs (base + j) = some sls[j]) →
    onnxScan b vs sls = some r →
    ∃ s, ((List.range k).map fun j => base + j).foldlM
        (fun s (k : ℕ) => (slicesAt inputs k).bind fun sl => scanIter b (k : ℤ) sl s) (vs, scan) = some s ∧
      s.1 = r.1 ∧ ∀ j : ℤ, s.2 j = if base ≤ j ∧ j < base + k then r.2[(j - base).toNat]? else scan j
  | 0, base, vs, sls, scan, r, hl, hk, hsl, hr => by
    have : sls = [] := List.length_eq_zero_iff.1 hk
    subst this
    cases hr
    exact ⟨(vs, scan), rfl, rfl, fun j => by rw [if_neg (by simp)]⟩
  | k + 1, base, vs, [], scan, r, hl, hk, hsl, hr => by simp at hk
  | k + 1, base, vs, sl :: sls, scan, r, hl, hk, hsl, hr => by
    rw [onnxScan] at hr
    cases h1 : (b.vals.mapM fun (y : ScanYield T) => y.eval vs sl) with
    | none => simp [h1] at hr
    | some vs' =>
      cases h2 : (b.scans.mapM fun (y : ScanYield T) => y.eval vs sl) with
      | none => simp [h1, h2] at hr
      | some row =>
        cases h3 : onnxScan b vs' sls with
        | none => simp [h1, h2, h3] at hr
        | some r' =>
          simp only [h1, h2, h3, Option.bind_some, Option.map_some, Option.some.injEq] at hr
          subst hr
          have hl' : vs'.length = b.vals.length := mapM_length h1
          obtain ⟨s, e1, e2, e3⟩ := scan_from hb k (base + 1) vs' sls (writeRow row base scan) r' hl' (by simpa using hk)
            (fun j hj => by
              have := hsl (j + 1) (by simpa using hj)
              rw [show base + 1 + j = base + (j + 1) by omega, this]
              rfl) h3
          refine ⟨s, ?_, e2, ?_⟩
          · rw [List.range_succ_eq_map, List.map_cons, List.foldlM_cons, List.map_map, Nat.add_zero]
            have h0 := hsl 0 (by simp)
            rw [Nat.add_zero] at h0
            have hcb : copyBack (b.vals.map fun y => y.run vs sl) 0 vs = some vs' := by
              refine copyBack_all ?_ (by rw [List.length_map, hl]) (by rw [readAll_scan_run, h1])
              intro k i hk
              rw [List.getElem?_map] at hk
              cases hy : b.vals[k]? with
              | none => simp [hy] at hk
              | some y =>
                rw [hy, Option.map_some, Option.some.injEq] at hk
                cases y with
                | computed f => cases hk
                | carried j => cases hk; exact hb.1 k i hy
            have hrd : readAll (b.scans.map fun y => y.run vs sl) vs' = some row := by
              rw [← h2, ← readAll_scan_run]
              unfold readAll
              rw [List.mapM_map, List.mapM_map]
              have : ∀ ys : List (ScanYield T), (∀ y ∈ ys, ∀ i, y ≠ ScanYield.carried i) →
                  ys.mapM (fun y => (y.run vs sl).read vs') = ys.mapM (fun y => (y.run vs sl).read vs) := by
                intro ys hys
                induction ys with
                | nil => rfl
                | cons y ys ih =>
                  rw [List.mapM_cons, List.mapM_cons, ih fun z hz => hys z (by simp [hz])]
                  cases y with
                  | carried i => exact absurd rfl (hys _ (by simp) i)
                  | computed f => rfl
              exact this b.scans hb.2
            have hi : ((slicesAt inputs base).bind fun sl => scanIter b (base : ℤ) sl (vs, scan)) =
                some (vs', writeRow row base scan) := by
              rw [h0, Option.bind_some]
              unfold scanIter
              simp only [List.getElem_cons_zero]
              rw [hcb, Option.bind_some, hrd]
              rfl
            rw [hi]
            have hm : ((List.range k).map ((fun j => base + j) ∘ Nat.succ)) = (List.range k).map fun j => base + 1 + j := by
              refine List.map_congr_left fun j _ => ?_
              simp only [Function.comp, Nat.succ_eq_add_one]
              omega
            rw [hm]
            exact e1
          · intro j
            rw [e3 j]
            push_cast
            by_cases hj : j = base
            · subst hj
              rw [if_neg (by omega), if_pos (by omega)]
              simp [writeRow]
            · by_cases hj2 : (base : ℤ) + 1 ≤ j ∧ j < base + 1 + k
              · rw [if_pos hj2, if_pos (by omega)]
                have : (j - base).toNat = (j - (base + 1)).toNat + 1 := by omega
                rw [this, List.getElem?_cons_succ]
              · rw [if_neg hj2, if_neg (by omega)]
                simp [writeRow, hj]

/-- Scan computes the ONNX semantics for every body, number of states and inputs, provided no state
is an argument overwritten before it is copied and no scan output is an argument.  `sls` are the slices, all
scan inputs having as many. -/
theorem C73_scan_partial (b : ScanBody T) (hb : ScanSafe b) (init : List T) (inputs : List (List T)) (sls : List (List T))
    (hl : init.length = b.vals.length) (hn : (inputs.map List.length).headD 0 = sls.length)
    (hs : ∀ j (hj : j < sls.length), (inputs.mapM fun l => l[j]?) = some sls[j]) (fin : List T) (rows : List (List T))
    (h : onnxScan b init sls = some (fin, rows)) :
    ∃ s, scanKrnl b init inputs = some s ∧ s.1 = fin ∧ ∀ k : ℕ, s.2 k = rows[k]? := by
  obtain ⟨s, e1, e2, e3⟩ := scan_from hb sls.length 0 init sls (fun _ => none) (fin, rows) hl rfl
    (fun j hj => by rw [Nat.zero_add]; exact hs j hj) h
  have hlen : ∀ (sls : List (List T)) (vs : List T) (fin : List T) (rows : List (List T)),
      onnxScan b vs sls = some (fin, rows) → rows.length = sls.length := by
    intro sls
    induction sls with
    | nil => intro vs fin rows h; cases h; rfl
    | cons sl sls ih =>
      intro vs fin rows h
      rw [onnxScan] at h
      cases h1 : (b.vals.mapM fun (y : ScanYield T) => y.eval vs sl) with
      | none => simp [h1] at h
      | some vs' =>
        cases h2 : (b.scans.mapM fun (y : ScanYield T) => y.eval vs sl) with
        | none => simp [h1, h2] at h
        | some row =>
          cases h3 : onnxScan b vs' sls with
          | none => simp [h1, h2, h3] at h
          | some r =>
            simp only [h1, h2, h3, Option.bind_some, Option.map_some, Option.some.injEq, Prod.mk.injEq] at h
            rw [← h.2]
            simp [ih vs' r.1 r.2 h3]
  refine ⟨s, ?_, e2, fun k => ?_⟩
  · unfold scanKrnl
    rw [hn]
    have : (List.range sls.length).map (fun j => 0 + j) = List.range sls.length := by simp
    rw [this] at e1
    exact e1
  · rw [e3 k]
    by_cases hk : k < sls.length
    · rw [if_pos (by constructor <;> push_cast <;> omega)]
      congr 1
    · rw [if_neg (by push_cast; omega), List.getElem?_eq_none]
      rw [hlen sls init fin rows h]; omega

/-- A running sum. -/
example : ScanSafe (⟨[.computed fun vs sl => vs.getD 0 0 + sl.getD 0 0], [.computed fun vs sl => vs.getD 0 0 * sl.getD 1 0]⟩ : ScanBody ℤ) ∧
    (scanKrnl (⟨[.computed fun vs sl => vs.getD 0 0 + sl.getD 0 0], [.computed fun vs sl => vs.getD 0 0 * sl.getD 1 0]⟩ : ScanBody ℤ)
      [10] [[1, 2, 3], [4, 5, 6]]).map (fun s => (s.1, s.2 0, s.2 2)) = some ([16], some [40], some [78]) := by
  refine ⟨⟨?_, ?_⟩, by decide +kernel⟩
  · intro k i h
    match k, h with
    | 0, h => cases h
    | k + 1, h => simp at h
  · intro y hy i h
    subst h
    simp at hy

/-- A scan output that is the state before the iteration gets the state after it. -/
theorem C73_output_false : ¬ ∀ (b : ScanBody ℤ) (init : List ℤ) (inputs sls : List (List ℤ)) (fin : List ℤ) (rows : List (List ℤ)),
    (∀ k i, b.vals[k]? = some (ScanYield.carried i) → k ≤ i) → init.length = b.vals.length →
    (inputs.map List.length).headD 0 = sls.length →
    (∀ j (hj : j < sls.length), (inputs.mapM fun l => l[j]?) = some sls[j]) →
    onnxScan b init sls = some (fin, rows) →
    ∃ s, scanKrnl b init inputs = some s ∧ s.1 = fin ∧ ∀ k : ℕ, s.2 k = rows[k]? := by
  intro h
  obtain ⟨s, h1, _, h3⟩ := h ⟨[.computed fun vs sl => vs.getD 0 0 + sl.getD 0 0], [.carried 0]⟩ [10] [[1]] [[1]] [11] [[10]]
    (by intro k i hk
        match k, hk with
        | 0, hk => cases hk
        | k + 1, hk => simp at hk) rfl rfl
    (by intro j hj
        have : j = 0 := by simpa using hj
        subst this; rfl) rfl
  have e : scanKrnl (⟨[.computed fun vs sl => vs.getD 0 0 + sl.getD 0 0], [.carried 0]⟩ : ScanBody ℤ) [10] [[1]] =
      some ([11], writeRow [11] 0 fun _ => none) := rfl
  rw [e] at h1
  have h1 := Option.some.inj h1
  have := h3 0
  rw [← h1] at this
  exact absurd this (by decide)

/-! ### C74 -/

/-- SequenceAt: position `p` from the start, or from the end when negative. -/
theorem C74_at (s : List T) (p : ℤ) (h : -(s.length : ℤ) ≤ p ∧ p < s.length) :
    ∃ i : ℕ, ((i : ℤ) = if p < 0 then p + s.length else p) ∧ ∃ hi : i < s.length, seqAt s p = some s[i] := by
  refine ⟨(if p < 0 then p + s.length else p).toNat, by split <;> omega, by split <;> omega, ?_⟩
  unfold seqAt seqPos seqLoad
  rw [if_pos (by split <;> omega), List.getElem?_eq_getElem]

example : seqAt [10, 20, 30] (-1) = some 30 ∧ seqAt [10, 20, 30] 1 = some 20 := by decide +kernel

/-- SequenceLength. -/
theorem C74_length (s : List T) : seqLength s = s.length := rfl

/-- SequenceInsert into the empty sequence. -/
theorem C74_insert_partial (t : T) (e : Bool) (pos : Option ℤ) (hp : pos = none ∨ pos = some 0) :
    (seqInsert [] e t pos).bind SeqBuf.toList = some [t] := by
  rcases hp with rfl | rfl <;> cases e <;> rfl

/-- SequenceInsert into a sequence that is not empty: for every sequence and every position the
operation allows, some slot of the result is never written. -/
theorem C74_insert_false (s : List T) (hs : s ≠ []) (t : T) (pos : Option ℤ)
    (hp : ∀ p, pos = some p → -(s.length : ℤ) ≤ p ∧ p ≤ s.length) :
    (seqInsert s false t pos).bind SeqBuf.toList = none := by
  have hn : 0 < s.length := List.length_pos_iff.2 hs
  unfold seqInsert
  simp only [Bool.false_eq_true, if_false]
  generalize hpp : posOr (s.length : ℤ) (s.length : ℤ) pos = p
  have hpr : 0 ≤ p ∧ p ≤ s.length := by
    rw [← hpp]
    cases pos with
    | none => simp [posOr]
    | some q =>
      have := hp q rfl
      simp only [posOr, seqPos]
      split <;> omega
  cases h1 : (forIE 0 p).foldlM (fun o i => (seqLoad s i).bind fun e => SeqBuf.store o p e) (seqAlloc ((s.length : ℤ) + 1)) with
  | none => rfl
  | some o1 =>
    rw [Option.bind_some]
    cases h2 : (forIE (p + 1) s.length).foldlM (fun o i => (seqLoad s i).bind fun e => SeqBuf.store o (i + 1) e) o1 with
    | none => rfl
    | some o2 =>
      rw [Option.bind_some]
      cases h3 : o2.store p t with
      | none => rfl
      | some o3 =>
        rw [Option.bind_some]
        -- the slot that is not written
        have hk : ∃ k : ℤ, 0 ≤ k ∧ k < s.length + 1 ∧ k ≠ p ∧ k < p + 2 := by
          rcases hpr.1.lt_or_eq with h | h
          · exact ⟨0, by omega, by omega, by omega, by omega⟩
          · exact ⟨1, by omega, by omega, by omega, by omega⟩
        obtain ⟨k, k0, k1, k2, k3⟩ := hk
        obtain ⟨a1, a2⟩ := seqLoop_other s (fun _ => p) k _ _ _ (fun i _ => by omega) h1
        obtain ⟨b1, b2⟩ := seqLoop_other s (fun i => i + 1) k _ _ _
          (fun i hi => by have := (mem_forIE.1 hi).1; omega) h2
        obtain ⟨c1, _, c2⟩ := seq_store_slot h3
        have hlen : o3.len = s.length + 1 := by rw [c1, b2, a2]; rfl
        refine mapM_none (a := k) (mem_upto.2 ⟨k0, by omega⟩) ?_
        rw [c2, if_neg k2, b1, a1]
        rfl

example : ([1, 2] : List ℤ) ≠ [] ∧ (seqInsert [1, 2] false 9 (some 1)).isSome = true := by
  exact ⟨by simp, by decide +kernel⟩

/-- SequenceErase of the first element. -/
theorem C74_erase_partial (a : T) (s : List T) (p : ℤ) (hp : p = 0 ∨ p = -((a :: s).length : ℤ)) :
    (seqErase (a :: s) (some p)).bind SeqBuf.toList = some s := by
  have hpos : seqPos ((a :: s).length : ℤ) p = 0 := by
    unfold seqPos
    rcases hp with rfl | rfl
    · simp
    · rw [if_pos (by simp only [List.length_cons]; omega)]; omega
  unfold seqErase
  simp only [posOr, hpos]
  rw [show forIE 0 0 = [] from rfl, List.foldlM_nil]
  show Option.bind (Option.bind (some _) _) _ = _
  rw [Option.bind_some]
  obtain ⟨o, e1, e2, e3, _⟩ := seqLoop_copy (a :: s) (fun i => i - 1) (forIE (0 + 1) (a :: s).length)
    (seqAlloc (((a :: s).length : ℤ) - 1)) ((nodup_forIE _ _).map fun x y h => by simpa using h) (fun i hi => by
      obtain ⟨h1, h2⟩ := mem_forIE.1 hi
      refine ⟨⟨by omega, h2⟩, by omega, ?_⟩
      show i - 1 < ((a :: s).length : ℤ) - 1
      omega)
  rw [e1, Option.bind_some]
  unfold SeqBuf.toList
  have hl : o.len = s.length := by rw [e2]; simp [seqAlloc]
  rw [hl]
  unfold upto
  rw [Int.toNat_natCast, List.mapM_map]
  have : ∀ k ∈ List.range s.length, (o.slot ∘ fun (k : ℕ) => (k : ℤ)) k = some (s.getD k a) := by
    intro k hk
    have hk := List.mem_range.1 hk
    have := e3 ((k : ℤ) + 1) (mem_forIE.2 (by simp only [List.length_cons]; push_cast; omega))
    simp only [add_sub_cancel_right] at this
    simp only [Function.comp, this]
    unfold seqLoad
    rw [if_pos (by omega)]
    have : ((k : ℤ) + 1).toNat = k + 1 := by omega
    rw [this, List.getElem?_cons_succ, List.getD_eq_getElem?_getD, List.getElem?_eq_getElem hk]
    rfl
  refine (mapM_some _ (fun k => s.getD k a) _ this).trans ?_
  congr 1
  refine List.ext_getElem (by simp) fun i h1 h2 => ?_
  simp [List.getD_eq_getElem?_getD, List.getElem?_eq_getElem h2]

example : (seqErase [5, 6, 7] (some 0)).bind SeqBuf.toList = some [6, 7] := by decide +kernel

/-- SequenceErase of any other element, the default one included: a slot of the result is never written, or a
store is out of bounds. -/
theorem C74_erase_false (s : List T) (pos : Option ℤ)
    (hp : match pos with
      | none => 2 ≤ s.length
      | some p => 0 < seqPos s.length p ∧ seqPos s.length p < s.length) :
    (seqErase s pos).bind SeqBuf.toList = none := by
  unfold seqErase
  simp only
  generalize hpp : posOr ((s.length : ℤ) - 1) (s.length : ℤ) pos = p
  have hpr : 0 < p ∧ p < s.length := by
    rw [← hpp]
    cases pos with
    | none =>
      simp only [posOr] at hp ⊢
      omega
    | some q => exact hp
  cases h1 : (forIE 0 p).foldlM (fun o i => (seqLoad s i).bind fun e => SeqBuf.store o p e) (seqAlloc ((s.length : ℤ) - 1)) with
  | none => rfl
  | some o1 =>
    rw [Option.bind_some]
    cases h2 : (forIE (p + 1) s.length).foldlM (fun o i => (seqLoad s i).bind fun e => SeqBuf.store o (i - 1) e) o1 with
    | none => rfl
    | some o2 =>
      rw [Option.bind_some]
      obtain ⟨a1, a2⟩ := seqLoop_other s (fun _ => p) 0 _ _ _ (fun i _ => by omega) h1
      obtain ⟨b1, b2⟩ := seqLoop_other s (fun i => i - 1) 0 _ _ _
        (fun i hi => by have := (mem_forIE.1 hi).1; omega) h2
      have hlen : o2.len = s.length - 1 := by rw [b2, a2]; rfl
      refine mapM_none (a := 0) (mem_upto.2 ⟨le_rfl, by omega⟩) ?_
      rw [b1, a1]
      rfl

end Verif.Props
