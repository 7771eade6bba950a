import Verif.RnnRewrite.Lemmas

/-!
# C91: rewrites of RNN, GRU and LSTM

Specification: `Verif/RnnRewrite/Spec.lean` (the operators in both layouts, with any equations of a step).
-/

namespace Verif.Props

open Verif.Rewrite Verif.RnnRewrite

variable {V : Type} [Inhabited V]

/-- Layout 1 (batch first) is replaced by layout 0 and transposes: every user of a result sees the same tensor. -/
theorem C91_layout (r : Recurrence V) (env : Env V) {n n' : Node} (h : rewriteLayout n = some n')
    (hx : n.x.perm = none) (hh : ∀ o, n.h0 = some o → o.perm = none) (hc : ∀ o, n.c0 = some o → o.perm = none)
    (ha : n.after = none) {out : Tensor V × Tensor V × Option (Tensor V)} (hout : n.eval r env = some out) :
    n'.layout = 0 ∧ n'.eval r env = some out := by
  unfold rewriteLayout at h
  by_cases hl : n.layout = 0
  · rw [if_pos hl] at h; cases h
  rw [if_neg hl] at h
  cases h
  refine ⟨rfl, ?_⟩
  -- operands
  have one : ∀ (o : Option Operand), (∀ p, o = some p → p.perm = none) →
      evalOpt env o = some (o.map fun p => env.value p.name) := by
    intro o ho
    cases o with
    | none => rfl
    | some p => simp [evalOpt, Operand.eval, ho p rfl]
  have two : ∀ (o : Option Operand) (a : Option (Tensor V)),
      (o.map fun p => env.value p.name) = none ∧ a = none ∨
        (∃ y b, (o.map fun p => env.value p.name) = some y ∧ a = some b ∧ transpose y perm3 = some b) →
      evalOpt env (o.map (·.transposed perm3)) = some a := by
    rintro o a (⟨h1, rfl⟩ | ⟨y, b, h1, rfl, h3⟩)
    · cases o with
      | none => rfl
      | some p => cases h1
    · cases o with
      | none => cases h1
      | some p =>
        cases h1
        simp [evalOpt, Operand.eval, Operand.transposed, h3]
  have hx' : n.x.eval env = some (env.value n.x.name) := by simp [Operand.eval, hx]
  have hc' : ∀ o, (if n.lstm then n.c0 else none) = some o → o.perm = none := by
    intro o ho
    split at ho
    · exact hc o ho
    · cases ho
  unfold Node.eval at hout
  rw [hx', one _ hh, one _ hc'] at hout
  simp only [Option.bind_some] at hout
  rw [decide_eq_true (by exact hl), Option.bind_eq_some_iff] at hout
  obtain ⟨res, hres, htr⟩ := hout
  obtain ⟨X', h0', c0', out', e1, e2, e3, e4, e5, e6, e7⟩ := recurrent_layout hres
  have hcc : (if n.lstm then (if n.lstm then n.c0.map (·.transposed perm3) else n.c0) else none) =
      (if n.lstm then n.c0 else none).map (·.transposed perm3) := by
    cases n.lstm <;> rfl
  have hX : (n.x.transposed perm3).eval env = some X' := e1
  unfold Node.eval
  simp only
  rw [hX, two _ _ e2, hcc, two _ _ e3]
  simp only [Option.bind_some]
  rw [show decide ((0 : ℤ) ≠ 0) = false from rfl, e4]
  simp only [Option.bind_some, transposeResults, e5, e6, e7]
  rw [ha] at htr
  simp only [transposeResults] at htr
  cases hls : n.lstm <;> rw [hls] at htr <;> simpa using htr

/-- Giving up the lengths of the sequences keeps the results when all the sequences have the full length.

Partial: the code gives them up for a batch of one sequence, whatever its length, and for some batches of more; see
`C91_seqlens_false` and `C91_seqlens_layout_false`. -/
theorem C91_seqlens_partial (r : Recurrence V) (env : Env V) {n n' : Node} (h : rewriteSeqLen n = some n')
    (hfull : ∀ o X, n.lens = some o → n.x.eval env = some X → ∀ b < (env.ints o.name).shape.getD 0 0,
      (env.ints o.name).get [b] = X.shape.getD (if n.layout ≠ 0 then 1 else 0) 0)
    {out : Tensor V × Tensor V × Option (Tensor V)} (hout : n.eval r env = some out) :
    n'.eval r env = some out := by
  unfold rewriteSeqLen at h
  cases hl : n.lens with
  | none => rw [hl] at h; cases h
  | some o =>
    rw [hl] at h
    simp only at h
    split at h
    · cases h
      unfold Node.eval at hout ⊢
      rw [Option.bind_eq_some_iff] at hout
      obtain ⟨X, hX, hout⟩ := hout
      rw [Option.bind_eq_some_iff] at hout
      obtain ⟨h0, hh0, hout⟩ := hout
      rw [Option.bind_eq_some_iff] at hout
      obtain ⟨c0, hc0, hout⟩ := hout
      rw [Option.bind_eq_some_iff] at hout
      obtain ⟨res, hres, hout⟩ := hout
      rw [hl] at hres
      simp only
      rw [hX, hh0, hc0]
      simp only [Option.bind_some, Option.map_none]
      have := recurrent_lens hres (by
        intro b hb
        rw [hfull o X hl hX b hb]
        simp)
      rw [this]
      exact hout
    · cases h

/-- The recorded shapes are right: known extents are those of the value. -/
def Typed (ty : Ty) (s : List ℕ) : Prop :=
  ∀ e, ty = some e → e.length = s.length ∧ ∀ k d, e[k]? = some (some d) → s.getD k 0 = d

/-- In layout 0 the test of the code does find batches of one sequence only.

Partial: not so in layout 1, see `C91_seqlens_layout_false`. -/
theorem C91_batch_one_partial (r : Recurrence V) {n n' : Node} (h : rewriteSeqLen n = some n') {X : Tensor V}
    {lens : Tensor ℕ} {h0 c0 : Option (Tensor V)} (hres : (recurrent r false X (some lens) h0 c0).isSome)
    (tx : Typed n.x.ty X.shape) (tl : ∀ o, n.lens = some o → Typed o.ty lens.shape)
    (th : ∀ o, n.h0 = some o → ∃ t, h0 = some t ∧ Typed o.ty t.shape) : X.shape.getD 1 0 = 1 := by
  obtain ⟨out, hout⟩ := Option.isSome_iff_exists.1 hres
  obtain ⟨S, N, I, hs, ⟨hlens, hh, -⟩, -⟩ := recurrent_some.1 hout
  have hs' : X.shape = [S, N, I] := hs
  unfold rewriteSeqLen at h
  cases hl : n.lens with
  | none => rw [hl] at h; cases h
  | some o =>
    rw [hl] at h
    simp only at h
    split at h
    · rename_i hcond
      simp only [Bool.or_eq_true] at hcond
      rcases hcond with (hc | hc) | hc
      · cases hty : n.x.ty with
        | none => rw [hty] at hc; cases hc
        | some e =>
          rw [hty] at hc
          exact (tx e hty).2 1 1 (by simpa [oneAt1] using hc)
      · cases hty : o.ty with
        | none => rw [hty] at hc; cases hc
        | some e =>
          rw [hty] at hc
          have he : e = [some 1] := by simpa [oneElement] using hc
          have := (tl o hl e hty).2 0 1 (by rw [he]; rfl)
          rw [(hlens lens rfl).1] at this
          rw [hs']
          exact this
      · cases hh0 : n.h0 with
        | none => rw [hh0] at hc; cases hc
        | some p =>
          rw [hh0] at hc
          obtain ⟨t, ht, hty⟩ := th p hh0
          cases hpt : p.ty with
          | none => simp [hpt, oneAt1] at hc
          | some e =>
            have h1 : e[1]? = some (some 1) := by simpa [hpt, oneAt1] using hc
            have := (hty e hpt).2 1 1 h1
            rw [hh t ht] at this
            rw [hs']
            exact this
    · cases h

/-! ### The hypotheses are met; where they are not -/

/-- Running sums: a recurrent operator with one hidden unit and one forward pass. -/
def sums : Recurrence ℤ where
  passes := [false]
  hidden := 1
  cell := fun _ x s => ([x.sum + s.1.sum], s.2)
  zero := 0

/-- One sequence of three steps. -/
def oneSequence : Node where
  lstm := false
  layout := 0
  x := ⟨0, some [some 3, some 1, some 1], none⟩
  lens := some ⟨1, some [some 1], none⟩
  h0 := none
  c0 := none

/-- The sequence 1, 2, 3 with its length. -/
def oneEnv (len : ℕ) : Env ℤ where
  value := fun _ => ⟨[3, 1, 1], [1, 2, 3], rfl⟩
  ints := fun _ => ⟨[1], [len], rfl⟩

theorem oneSequence_fits (len : ℕ) (h : len ≤ 3) :
    Fits sums false 3 1 (some (⟨[1], [len], rfl⟩ : Tensor ℕ)) none none := by
  refine ⟨?_, fun x hx => (by cases hx), fun x hx => (by cases hx)⟩
  intro l hl
  cases hl
  refine ⟨rfl, fun b hb => ?_⟩
  obtain rfl : b = 0 := by omega
  exact h

theorem oneSequence_results (len : ℕ) (h : len ≤ 3) : oneSequence.eval sums (oneEnv len) =
    some ((results sums false 3 1 1 ⟨[3, 1, 1], [1, 2, 3], rfl⟩ (some ⟨[1], [len], rfl⟩) none none).1,
      (results sums false 3 1 1 ⟨[3, 1, 1], [1, 2, 3], rfl⟩ (some ⟨[1], [len], rfl⟩) none none).2.1, none) := by
  have : recurrent sums false ⟨[3, 1, 1], [1, 2, 3], rfl⟩ (some (⟨[1], [len], rfl⟩ : Tensor ℕ)) none none =
      some (results sums false 3 1 1 ⟨[3, 1, 1], [1, 2, 3], rfl⟩ (some ⟨[1], [len], rfl⟩) none none) :=
    recurrent_some.2 ⟨3, 1, 1, rfl, oneSequence_fits len h, rfl⟩
  show (recurrent sums false ⟨[3, 1, 1], [1, 2, 3], rfl⟩ (some (⟨[1], [len], rfl⟩ : Tensor ℕ)) none none).bind _ = _
  rw [this]
  rfl

theorem oneSequence_rewritten (len : ℕ) : ({ oneSequence with lens := none } : Node).eval sums (oneEnv len) =
    some ((results sums false 3 1 1 ⟨[3, 1, 1], [1, 2, 3], rfl⟩ none none none).1,
      (results sums false 3 1 1 ⟨[3, 1, 1], [1, 2, 3], rfl⟩ none none none).2.1, none) := by
  have : recurrent sums false ⟨[3, 1, 1], [1, 2, 3], rfl⟩ none none none =
      some (results sums false 3 1 1 ⟨[3, 1, 1], [1, 2, 3], rfl⟩ none none none) :=
    recurrent_some.2 ⟨3, 1, 1, rfl, ⟨fun x hx => (by cases hx), fun x hx => (by cases hx), fun x hx => (by cases hx)⟩, rfl⟩
  show (recurrent sums false ⟨[3, 1, 1], [1, 2, 3], rfl⟩ none none none).bind _ = _
  rw [this]
  rfl

example : rewriteSeqLen oneSequence = some { oneSequence with lens := none } := by decide

/-- A full sequence meets the hypotheses of `C91_seqlens_partial`. -/
example : ∃ out, oneSequence.eval sums (oneEnv 3) = some out ∧
    ∀ o X, oneSequence.lens = some o → oneSequence.x.eval (oneEnv 3) = some X →
      ∀ b < ((oneEnv 3).ints o.name).shape.getD 0 0,
        ((oneEnv 3).ints o.name).get [b] = X.shape.getD (if oneSequence.layout ≠ 0 then 1 else 0) 0 := by
  refine ⟨_, oneSequence_results 3 (by omega), ?_⟩
  intro o X ho hX b hb
  cases ho
  cases hX
  have hb' : b < 1 := hb
  obtain rfl : b = 0 := by omega
  decide

/-- One sequence that is shorter than the padded input: the operator returns the sum of the first two elements, the
rewritten operator goes on into the padding. -/
theorem C91_seqlens_false : ∃ n n' env, rewriteSeqLen n = some n' ∧
    (n.eval sums env).map (fun o => (o.1.data, o.2.1.data)) = some ([1, 3, 0], [3]) ∧
    (n'.eval sums env).map (fun o => (o.1.data, o.2.1.data)) = some ([1, 3, 6], [6]) := by
  refine ⟨oneSequence, { oneSequence with lens := none }, oneEnv 2, by decide, ?_, ?_⟩
  · rw [oneSequence_results 2 (by omega)]
    decide +kernel
  · rw [oneSequence_rewritten 2]
    decide +kernel

/-- Two sequences in layout 1, with an initial state. -/
def twoSequences : Node where
  lstm := false
  layout := 1
  x := ⟨0, some [some 2, some 3, some 1], none⟩
  lens := some ⟨1, some [some 2], none⟩
  h0 := some ⟨2, some [some 2, some 1, some 1], none⟩
  c0 := none

/-- The sequences 1, 2, 3 and 4 (and padding 5, 6), both from 10. -/
def twoEnv : Env ℤ where
  value := fun n => if n = 0 then ⟨[2, 3, 1], [1, 2, 3, 4, 5, 6], rfl⟩ else ⟨[2, 1, 1], [10, 10], rfl⟩
  ints := fun _ => ⟨[2], [3, 1], rfl⟩

theorem twoSequences_results : twoSequences.eval sums twoEnv =
    some ((results sums true 3 2 1 (twoEnv.value 0) (some (twoEnv.ints 1)) (some (twoEnv.value 2)) none).1,
      (results sums true 3 2 1 (twoEnv.value 0) (some (twoEnv.ints 1)) (some (twoEnv.value 2)) none).2.1, none) := by
  have : recurrent sums true (twoEnv.value 0) (some (twoEnv.ints 1)) (some (twoEnv.value 2)) none =
      some (results sums true 3 2 1 (twoEnv.value 0) (some (twoEnv.ints 1)) (some (twoEnv.value 2)) none) := by
    refine recurrent_some.2 ⟨3, 2, 1, rfl, ⟨?_, ?_, fun x hx => by cases hx⟩, rfl⟩
    · intro l hl
      cases hl
      refine ⟨rfl, fun b hb => ?_⟩
      match b, hb with
      | 0, _ => decide
      | 1, _ => decide
    · intro h hh
      cases hh
      rfl
  show (recurrent sums true (twoEnv.value 0) (some (twoEnv.ints 1)) (some (twoEnv.value 2)) none).bind _ = _
  rw [this]
  rfl

theorem twoSequences_rewritten : ({ twoSequences with lens := none } : Node).eval sums twoEnv =
    some ((results sums true 3 2 1 (twoEnv.value 0) none (some (twoEnv.value 2)) none).1,
      (results sums true 3 2 1 (twoEnv.value 0) none (some (twoEnv.value 2)) none).2.1, none) := by
  have : recurrent sums true (twoEnv.value 0) none (some (twoEnv.value 2)) none =
      some (results sums true 3 2 1 (twoEnv.value 0) none (some (twoEnv.value 2)) none) := by
    refine recurrent_some.2 ⟨3, 2, 1, rfl, ⟨fun x hx => (by cases hx), ?_, fun x hx => (by cases hx)⟩, rfl⟩
    intro h hh
    cases hh
    rfl
  show (recurrent sums true (twoEnv.value 0) none (some (twoEnv.value 2)) none).bind _ = _
  rw [this]
  rfl

/-- In layout 1 the second extent of the initial state is the number of directions, not the size of the batch: the
lengths of two sequences are given up, and the second result includes the padding. -/
theorem C91_seqlens_layout_false : ∃ n n' env, rewriteSeqLen n = some n' ∧
    (n.eval sums env).map (fun o => (o.1.data, o.2.1.data)) = some ([11, 13, 16, 14, 0, 0], [16, 14]) ∧
    (n'.eval sums env).map (fun o => (o.1.data, o.2.1.data)) = some ([11, 13, 16, 14, 19, 25], [16, 25]) := by
  refine ⟨twoSequences, { twoSequences with lens := none }, twoEnv, by decide, ?_, ?_⟩
  · rw [twoSequences_results]
    decide +kernel
  · rw [twoSequences_rewritten]
    decide +kernel

/-- `C91_layout` applies to these two sequences, which have results. -/
example : (rewriteLayout twoSequences).isSome ∧ (twoSequences.eval sums twoEnv).isSome ∧
    twoSequences.x.perm = none ∧ twoSequences.after = none ∧ (∀ o, twoSequences.h0 = some o → o.perm = none) := by
  refine ⟨rfl, by rw [twoSequences_results]; rfl, rfl, rfl, ?_⟩
  intro o ho
  cases ho
  rfl

example : Typed oneSequence.x.ty ((oneEnv 2).value 0).shape := by
  intro e he
  cases he
  refine ⟨rfl, ?_⟩
  intro k d hk
  match k, hk with
  | 0, hk => cases hk; rfl
  | 1, hk => cases hk; rfl
  | 2, hk => cases hk; rfl

end Verif.Props
