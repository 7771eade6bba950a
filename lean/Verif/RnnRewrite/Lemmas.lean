import Verif.RnnRewrite.Model
import Verif.Rewrite.TransposeSem

/-! # Lemmas about the rewrites of recurrent operators -/

namespace Verif.RnnRewrite

open Verif.Rewrite

variable {V : Type} [Inhabited V]

theorem perm3_isPerm : IsPerm 3 perm3 := by decide

theorem perm4_isPerm : IsPerm 4 perm4 := by decide

theorem transpose3 {x : Tensor V} {a b c : ℕ} (h : x.shape = [a, b, c]) :
    transpose x perm3 = some (build [b, a, c] fun i => x.get [i.getD 1 0, i.getD 0 0, i.getD 2 0]) := by
  unfold transpose
  rw [h, if_pos (by exact perm3_isPerm)]
  rfl

theorem transpose4 {x : Tensor V} {a b c d : ℕ} (h : x.shape = [a, b, c, d]) :
    transpose x perm4 = some (build [c, a, b, d] fun i => x.get [i.getD 1 0, i.getD 2 0, i.getD 0 0, i.getD 3 0]) := by
  unfold transpose
  rw [h, if_pos (by exact perm4_isPerm)]
  rfl

theorem get_transpose3 {x y : Tensor V} {a b c : ℕ} (h : x.shape = [a, b, c]) (hy : transpose x perm3 = some y)
    {i j k : ℕ} (hi : i < b) (hj : j < a) (hk : k < c) : y.get [i, j, k] = x.get [j, i, k] := by
  rw [transpose3 h] at hy
  cases hy
  rw [get_build _ (by simp [hi, hj, hk])]
  rfl

/-- The states only depend on the inputs within the sequence. -/
theorem stateAfter_congr (cell : List V → State V → State V) (rev : Bool) {xs ys : ℕ → List V} {len : ℕ} (s0 : State V)
    (h : ∀ t < len, xs t = ys t) : ∀ k ≤ len, stateAfter cell rev xs len s0 k = stateAfter cell rev ys len s0 k
  | 0, _ => rfl
  | k + 1, hk => by
    simp only [stateAfter]
    rw [stateAfter_congr cell rev s0 h k (by omega), h _ (by split <;> omega)]

/-- The optional state in the other layout. -/
def TransposedState (D N H : ℕ) (h0 h0' : Option (Tensor V)) : Prop :=
  h0 = none ∧ h0' = none ∨ ∃ h h', h0 = some h ∧ h0' = some h' ∧ h.shape = [N, D, H] ∧ transpose h perm3 = some h'

theorem initial_transposed {r : Recurrence V} {D N : ℕ} {h0 h0' : Option (Tensor V)}
    (h : TransposedState D N r.hidden h0 h0') {d b : ℕ} (hd : d < D) (hb : b < N) :
    initial r false h0' d b = initial r true h0 d b := by
  unfold initial
  apply List.map_congr_left
  intro j hj
  rw [List.mem_range] at hj
  rcases h with ⟨rfl, rfl⟩ | ⟨x, x', rfl, rfl, hs, ht⟩
  · rfl
  · exact get_transpose3 hs ht hd hb hj

theorem stateOf_transposed {r : Recurrence V} {S N I : ℕ} {X X' : Tensor V} {lens : Option (Tensor ℕ)}
    {h0 h0' c0 c0' : Option (Tensor V)} (hX : X.shape = [N, S, I]) (hX' : transpose X perm3 = some X')
    (hh : TransposedState r.passes.length N r.hidden h0 h0') (hc : TransposedState r.passes.length N r.hidden c0 c0')
    {d b k : ℕ} (hd : d < r.passes.length) (hb : b < N) (hl : lengthOf S lens b ≤ S) (hk : k ≤ lengthOf S lens b) :
    stateOf r false S I X' lens h0' c0' d b k = stateOf r true S I X lens h0 c0 d b k := by
  unfold stateOf
  rw [initial_transposed hh hd hb, initial_transposed hc hd hb]
  apply stateAfter_congr _ _ _ _ _ hk
  intro t ht
  unfold inputs
  apply List.map_congr_left
  intro j hj
  rw [List.mem_range] at hj
  exact get_transpose3 hX hX' (by omega) hb hj

theorem results_transposed {r : Recurrence V} {S N I : ℕ} {X X' : Tensor V} {lens : Option (Tensor ℕ)}
    {h0 h0' c0 c0' : Option (Tensor V)} (hX : X.shape = [N, S, I]) (hX' : transpose X perm3 = some X')
    (hh : TransposedState r.passes.length N r.hidden h0 h0') (hc : TransposedState r.passes.length N r.hidden c0 c0')
    (hl : ∀ b < N, lengthOf S lens b ≤ S) :
    transpose (results r false S N I X' lens h0' c0').1 perm4 = some (results r true S N I X lens h0 c0).1 ∧
    transpose (results r false S N I X' lens h0' c0').2.1 perm3 = some (results r true S N I X lens h0 c0).2.1 ∧
    transpose (results r false S N I X' lens h0' c0').2.2 perm3 = some (results r true S N I X lens h0 c0).2.2 := by
  refine ⟨?_, ?_, ?_⟩
  · rw [transpose4 (a := S) (b := r.passes.length) (c := N) (d := r.hidden) rfl]
    congr 1
    apply build_congr
    intro i hi
    obtain ⟨b, t, d, j, rfl⟩ : ∃ b t d j, i = [b, t, d, j] := by
      have := hi.length
      match i, this with
      | [b, t, d, j], _ => exact ⟨b, t, d, j, rfl⟩
    simp only [inBounds_cons, inBounds_nil_left] at hi
    obtain ⟨hb, ht, hd, hj, -⟩ := hi
    simp only [List.getD_cons_succ, List.getD_cons_zero]
    simp only [results]
    rw [get_build _ (by simp [yIndex, hb, ht, hd, hj])]
    simp only [List.getD_cons_succ, List.getD_cons_zero, if_true, Bool.false_eq_true, if_false]
    by_cases hlt : t < lengthOf S lens b
    · rw [if_pos hlt, if_pos hlt]
      rw [stateOf_transposed hX hX' hh hc hd hb (hl b hb) (by split <;> omega)]
    · rw [if_neg hlt, if_neg hlt]
  all_goals
    rw [transpose3 (a := r.passes.length) (b := N) (c := r.hidden) rfl]
    congr 1
    apply build_congr
    intro i hi
    obtain ⟨b, d, j, rfl⟩ : ∃ b d j, i = [b, d, j] := by
      have := hi.length
      match i, this with
      | [b, d, j], _ => exact ⟨b, d, j, rfl⟩
    simp only [inBounds_cons, inBounds_nil_left] at hi
    obtain ⟨hb, hd, hj, -⟩ := hi
    simp only [List.getD_cons_succ, List.getD_cons_zero]
    simp only [results]
    rw [get_build _ (by simp [swap, hb, hd, hj])]
    simp only [List.getD_cons_succ, List.getD_cons_zero, if_true, Bool.false_eq_true, if_false]
    rw [stateOf_transposed hX hX' hh hc hd hb (hl b hb) le_rfl]

theorem recurrent_some {r : Recurrence V} {l : Bool} {X : Tensor V} {lens : Option (Tensor ℕ)}
    {h0 c0 : Option (Tensor V)} {out : Tensor V × Tensor V × Tensor V} :
    recurrent r l X lens h0 c0 = some out ↔ ∃ S N I, X.shape = swap l S N [I] ∧ Fits r l S N lens h0 c0 ∧
      results r l S N I X lens h0 c0 = out := by
  unfold recurrent
  constructor
  · intro h
    split at h
    · rename_i a b I hs
      by_cases hf : Fits r l (if l then b else a) (if l then a else b) lens h0 c0
      · rw [if_pos hf] at h
        cases h
        refine ⟨_, _, I, ?_, hf, rfl⟩
        rw [hs]
        cases l <;> rfl
      · rw [if_neg hf] at h
        cases h
    · cases h
  · rintro ⟨S, N, I, hs, hf, rfl⟩
    rw [hs]
    cases l <;> (simp only [swap, if_true, Bool.false_eq_true, if_false]; exact if_pos hf)

/-- Both layouts agree, up to transposes of the inputs and outputs. -/
theorem recurrent_layout {r : Recurrence V} {X : Tensor V} {lens : Option (Tensor ℕ)} {h0 c0 : Option (Tensor V)}
    {out : Tensor V × Tensor V × Tensor V} (h : recurrent r true X lens h0 c0 = some out) :
    ∃ X' h0' c0' out', transpose X perm3 = some X' ∧
      (h0 = none ∧ h0' = none ∨ ∃ a b, h0 = some a ∧ h0' = some b ∧ transpose a perm3 = some b) ∧
      (c0 = none ∧ c0' = none ∨ ∃ a b, c0 = some a ∧ c0' = some b ∧ transpose a perm3 = some b) ∧
      recurrent r false X' lens h0' c0' = some out' ∧
      transpose out'.1 perm4 = some out.1 ∧ transpose out'.2.1 perm3 = some out.2.1 ∧
      transpose out'.2.2 perm3 = some out.2.2 := by
  obtain ⟨S, N, I, hs, ⟨hlens, hh, hc⟩, rfl⟩ := recurrent_some.1 h
  have hX' := transpose3 (x := X) (a := N) (b := S) (c := I) hs
  have mk : ∀ (q : Option (Tensor V)), (∀ a, q = some a → a.shape = swap true r.passes.length N [r.hidden]) →
      ∃ q', TransposedState r.passes.length N r.hidden q q' ∧
        (∀ a, q' = some a → a.shape = swap false r.passes.length N [r.hidden]) := by
    intro q hq
    cases q with
    | none => exact ⟨none, .inl ⟨rfl, rfl⟩, fun a ha => by cases ha⟩
    | some a =>
      have ha : a.shape = [N, r.passes.length, r.hidden] := hq a rfl
      exact ⟨some _, .inr ⟨a, _, rfl, rfl, ha, transpose3 ha⟩, fun b hb => by cases hb; rfl⟩
  obtain ⟨h0', hT, hS⟩ := mk h0 hh
  obtain ⟨c0', cT, cS⟩ := mk c0 hc
  have hl : ∀ b < N, lengthOf S lens b ≤ S := by
    intro b hb
    cases lens with
    | none => exact le_rfl
    | some l => exact (hlens l rfl).2 b hb
  have key := results_transposed (I := I) hs hX' hT cT hl
  have weak : ∀ {q q' : Option (Tensor V)}, TransposedState r.passes.length N r.hidden q q' →
      (q = none ∧ q' = none ∨ ∃ a b, q = some a ∧ q' = some b ∧ transpose a perm3 = some b) := by
    rintro q q' (h | ⟨a, b, h1, h2, -, h3⟩)
    · exact .inl h
    · exact .inr ⟨a, b, h1, h2, h3⟩
  exact ⟨_, h0', c0', _, hX', weak hT, weak cT,
    recurrent_some.2 ⟨S, N, I, rfl, ⟨hlens, hS, cS⟩, rfl⟩, key.1, key.2.1, key.2.2⟩

/-- Lengths that are all full need not be given. -/
theorem recurrent_lens {r : Recurrence V} {l : Bool} {X : Tensor V} {lens : Tensor ℕ} {h0 c0 : Option (Tensor V)}
    {out : Tensor V × Tensor V × Tensor V} (h : recurrent r l X (some lens) h0 c0 = some out)
    (hfull : ∀ b < lens.shape.getD 0 0, lens.get [b] = X.shape.getD (if l then 1 else 0) 0) :
    recurrent r l X none h0 c0 = some out := by
  obtain ⟨S, N, I, hs, ⟨hlens, hh, hc⟩, rfl⟩ := recurrent_some.1 h
  refine recurrent_some.2 ⟨S, N, I, hs, ⟨fun a ha => (by cases ha), hh, hc⟩, ?_⟩
  have hb' : ∀ b < N, lengthOf S (some lens) b = lengthOf S none b := by
    intro b hb
    have := hfull b (by rw [(hlens lens rfl).1]; exact hb)
    simp only [lengthOf]
    rw [this, hs]
    cases l <;> rfl
  have hst : ∀ d b k, b < N → stateOf r l S I X (some lens) h0 c0 d b k = stateOf r l S I X none h0 c0 d b k := by
    intro d b k hb
    unfold stateOf
    rw [hb' b hb]
  have hin3 : ∀ {i : List ℕ}, InBounds (swap l r.passes.length N [r.hidden]) i → i.getD (if l then 0 else 1) 0 < N := by
    intro i hi
    have := hi.length
    cases l <;> match i, this, hi with
      | [a, b, c], _, hi =>
        simp only [swap, if_true, Bool.false_eq_true, if_false, inBounds_cons] at hi
        first | exact hi.1 | exact hi.2.1
  have hin4 : ∀ {i : List ℕ}, InBounds (yIndex l S r.passes.length N r.hidden) i →
      i.getD (if l then 0 else 2) 0 < N := by
    intro i hi
    have := hi.length
    cases l <;> match i, this, hi with
      | [a, b, c, d], _, hi =>
        simp only [yIndex, if_true, Bool.false_eq_true, if_false, inBounds_cons] at hi
        first | exact hi.1 | exact hi.2.2.1
  simp only [results]
  refine Prod.ext ?_ (Prod.ext ?_ ?_)
  · apply build_congr
    intro i hi
    simp only [hb' _ (hin4 hi), hst _ _ _ (hin4 hi)]
  · apply build_congr
    intro i hi
    simp only [hb' _ (hin3 hi), hst _ _ _ (hin3 hi)]
  · apply build_congr
    intro i hi
    simp only [hb' _ (hin3 hi), hst _ _ _ (hin3 hi)]

end Verif.RnnRewrite
