import Verif.Lower.RnnSteps
import Mathlib.Tactic.NormNum
import Mathlib.Algebra.Ring.Int.Defs

/-!
C79: RNN, LSTM and GRU.
-/

namespace Verif.Props

open Verif.Lower

section
variable {R : Type*} [CommRing R]

theorem pass_lt (dir : RDir) (d : ℕ) (rev : Bool) (h : (passes dir)[d]? = some rev) : (d : ℤ) < (passes dir).length := by
  have := (List.getElem?_eq_some_iff.1 h).1
  exact_mod_cast this

/-- C79.  RNN: for every direction, sequence length, batch, input and hidden size, with or without biases, initial state and
output Y, the lowering returns the states of the equations of the ONNX documentation: Y at every time step, and Y_h
after the last one. -/
theorem C79_rnn (dir : RDir) (f : Bool → R → R) (X : Mem R) (w : RWeights R) (initH : Option (Mem R)) (hasY : Bool) (junk : Idx → R)
    (S N I hs : ℤ) (hX : X.shape = [S, N, I]) (hS : 0 ≤ S) (hw : WOk w (passes dir).length 1 I hs) (hH : InitOk initH (passes dir).length N hs) :
    ∃ o, rnnOp dir f X w.W w.Rw w.B none initH hasY junk = some o ∧
      RnnResult o dir X S N hs initH none hasY
        (fun d => rnnCell (f (!((passes dir).getD d false))) w I hs d) (fun _ => S) := by
  have hhs : w.Rw.shape.getD 2 0 = hs := by rw [hw.Rw]; rfl
  unfold rnnOp
  simp only [hhs]
  refine rnnLower_ok dir X initH none hasY junk _ S N I hs _ _ hX hS (fun _ _ _ => ⟨hS, le_refl _⟩) hH (by intro m hm; cases hm) ?_
    (fun d => rnnCell_ok _ w I hs d)
  intro d rev hd
  have := rnnStep_ok dir f w S (passes dir).length N I hs (!rev) (initAt initH d) rfl
    (by rw [dIdx_pass dir d rev hd]; exact pass_lt dir d rev hd) hw (fun _ => S) (fun _ => rfl)
  rw [dIdx_pass dir d rev hd] at this
  rw [List.getD_eq_getElem?_getD, hd]
  exact this

/-- C79.  LSTM, with peepholes. -/
theorem C79_lstm (dir : RDir) (a : Bool → LstmAct R) (X : Mem R) (w : RWeights R) (initH initC P : Option (Mem R)) (hasY : Bool) (junk : Idx → R)
    (S N I hs : ℤ) (hX : X.shape = [S, N, I]) (hS : 0 ≤ S) (hw : WOk w (passes dir).length 4 I hs) (hH : InitOk initH (passes dir).length N hs)
    (hC : InitOk initC (passes dir).length N hs) (hP : ∀ m, P = some m → m.shape = [((passes dir).length : ℤ), 3 * hs]) :
    ∃ o, lstmOp dir a X w.W w.Rw w.B none initH initC P hasY junk = some o ∧
      RnnResult o dir X S N hs initH initC hasY
        (fun d => lstmCell (a (!((passes dir).getD d false))) w P I hs d) (fun _ => S) := by
  have hhs : w.Rw.shape.getD 2 0 = hs := by rw [hw.Rw]; rfl
  unfold lstmOp
  rw [hhs]
  refine rnnLower_ok dir X initH initC hasY junk _ S N I hs _ _ hX hS (fun _ _ _ => ⟨hS, le_refl _⟩) hH hC ?_
    (fun d => lstmCell_ok _ w P I hs d)
  intro d rev hd
  have := lstmStep_ok dir a w P S (passes dir).length N I hs (!rev) (initAt initH d) rfl
    (by rw [dIdx_pass dir d rev hd]; exact pass_lt dir d rev hd) hw hP (fun _ => S) (fun _ => rfl)
  rw [dIdx_pass dir d rev hd] at this
  rw [List.getD_eq_getElem?_getD, hd]
  exact this

/-- C79.  GRU, with and without `linear_before_reset`, with sequences of different lengths: every sequence of the
batch behaves as if it was alone and had its own length, the output Y holds the initial state in the padding. -/
theorem C79_gru (dir : RDir) (lin : Bool) (a : Bool → (R → R) × (R → R)) (X : Mem R) (w : RWeights R) (lens : Option (Mem ℤ)) (initH : Option (Mem R))
    (hasY : Bool) (junk : Idx → R) (S N I hs : ℤ) (hX : X.shape = [S, N, I]) (hS : 0 ≤ S) (hw : WOk w (passes dir).length 3 I hs)
    (hH : InitOk initH (passes dir).length N hs)
    (hl : ∀ L, lens = some L → L.shape = [N] ∧ ∀ b, 0 ≤ b → b < N → 0 ≤ L.data [b] ∧ L.data [b] ≤ S) :
    ∃ o, gruOp dir lin a X w.W w.Rw w.B lens initH hasY junk = some o ∧
      RnnResult o dir X S N hs initH none hasY
        (fun d => gruCell lin (a (!((passes dir).getD d false))).1 (a (!((passes dir).getD d false))).2 w I hs d) (lenOf lens S) := by
  have hhs : w.Rw.shape.getD 2 0 = hs := by rw [hw.Rw]; rfl
  unfold gruOp
  rw [hhs]
  refine rnnLower_ok dir X initH none hasY junk _ S N I hs _ _ hX hS ?_ hH (by intro m hm; cases hm) ?_
    (fun d => gruCell_ok lin _ _ w I hs d)
  · intro b h0 h1
    unfold lenOf
    match lens, hl with
    | none, _ => exact ⟨hS, le_refl _⟩
    | some L, hl => exact (hl L rfl).2 b h0 h1
  · intro d rev hd
    rw [List.getD_eq_getElem?_getD, hd]
    cases lin
    · have := gruStepNl_ok dir a w lens initH junk S (passes dir).length N I hs (!rev) rfl
        (by rw [dIdx_pass dir d rev hd]; exact pass_lt dir d rev hd) hw hH (fun L hL => (hl L hL).1)
      rw [dIdx_pass dir d rev hd] at this
      exact this
    · have := gruStepLin_ok dir a w lens initH junk S (passes dir).length N I hs (!rev) rfl
        (by rw [dIdx_pass dir d rev hd]; exact pass_lt dir d rev hd) hw hH (fun L hL => (hl L hL).1)
      rw [dIdx_pass dir d rev hd] at this
      exact this

/-- The hypotheses are met: a bidirectional GRU with 3 steps, 2 sequences of lengths 3 and 1, 2 inputs and 2 units. -/
example (X W Rw B ini : Idx → ℤ) :
    WOk (⟨⟨[2, 6, 2], W⟩, ⟨[2, 6, 2], Rw⟩, some ⟨[2, 12], B⟩⟩ : RWeights ℤ) (passes .bidirectional).length 3 2 2 ∧
    InitOk (some (⟨[2, 2, 2], ini⟩ : Mem ℤ)) (passes .bidirectional).length 2 2 ∧
    ∀ L : Mem ℤ, some (⟨[2], fun i => if i = [0] then 3 else 1⟩ : Mem ℤ) = some L →
      L.shape = [2] ∧ ∀ b, 0 ≤ b → b < 2 → 0 ≤ L.data [b] ∧ L.data [b] ≤ 3 := by
  refine ⟨⟨rfl, rfl, ?_⟩, ?_, ?_⟩
  · intro m hm; cases hm; rfl
  · intro m hm; cases hm; rfl
  · intro L hL
    cases hL
    refine ⟨rfl, fun b h0 h1 => ?_⟩
    simp only
    split <;> omega

/-- A run: RNN with identity activation, W = 1, R = 1, two steps 5 and 7, in both directions. -/
example : (rnnOp .bidirectional (fun _ x => x) (⟨[2, 1, 1], fun i => if i = [0, 0, 0] then 5 else 7⟩ : Mem ℤ) ⟨[2, 1, 1], fun _ => 1⟩
    ⟨[2, 1, 1], fun _ => 2⟩ none none none true (fun _ => 0)).map (fun o =>
      (o.Y.map fun y => (idxs y.shape).map y.data, (idxs o.Yh.shape).map o.Yh.data)) =
    some (some [5, 19, 17, 7], [17, 19]) := by decide +kernel

/-- C79.  RNN refuses `sequence_lens`. -/
theorem C79_rnn_seqlens (dir : RDir) (f : Bool → R → R) (X W Rw : Mem R) (B initH : Option (Mem R)) (L : Mem ℤ) (hasY : Bool) (junk : Idx → R) :
    rnnOp dir f X W Rw B (some L) initH hasY junk = none := rfl

/-- C79 fails for LSTM with `sequence_lens`: they are ignored.  Two sequences, the second of length 1, give the last state of
the second step. -/
theorem C79_lstm_seqlens_false : ∃ (a : Bool → LstmAct ℤ) (X : Mem ℤ) (w : RWeights ℤ) (L : Mem ℤ),
    X.shape = [2, 2, 1] ∧ WOk w (passes .forward).length 4 1 1 ∧ L.shape = [2] ∧ (∀ b, 0 ≤ b → b < 2 → 0 ≤ L.data [b] ∧ L.data [b] ≤ 2) ∧
    ∀ o, lstmOp .forward a X w.W w.Rw w.B (some L) none none none true (fun _ => 0) = some o →
      ¬ RnnResult o .forward X 2 2 1 none none true (fun d => lstmCell (a true) w none 1 1 d) (fun b => L.data [b]) := by
  refine ⟨fun _ => ⟨fun _ => 1, fun x => x, fun x => x⟩, ⟨[2, 2, 1], fun _ => 1⟩, ⟨⟨[1, 4, 1], fun _ => 1⟩, ⟨[1, 4, 1], fun _ => 0⟩, none⟩,
    ⟨[2], fun i => if i = [0] then 2 else 1⟩, rfl, ⟨rfl, rfl, by intro m hm; cases hm⟩, rfl, ?_, ?_⟩
  · intro b h0 h1
    simp only
    split <;> omega
  · intro o ho hr
    have h1 := hr.valYh 0 false rfl 1 0 (by omega) (by omega) (by omega) (by omega)
    have e : (lstmOp .forward (fun _ => ⟨fun _ => 1, fun x => x, fun x => x⟩) (⟨[2, 2, 1], fun _ => 1⟩ : Mem ℤ) ⟨[1, 4, 1], fun _ => 1⟩
      ⟨[1, 4, 1], fun _ => 0⟩ none (some ⟨[2], fun i => if i = [0] then 2 else 1⟩) none none none true (fun _ => 0)).map (fun o => o.Yh.data [0, 1, 0]) =
        some 2 := by decide +kernel
    simp only at ho
    rw [ho] at e
    simp only [Option.map_some, Option.some.injEq] at e
    simp only [Nat.cast_zero] at h1
    rw [e] at h1
    revert h1
    decide +kernel

/-! ### Activation functions -/

/-- C79.  Every pass uses its own part of the list of activation functions: pass `p` uses the entries from `p * n` on, and
the default where the list is too short. -/
theorem C79_activations {A : Type*} (n : ℕ) (dir : RDir) (d : ℕ) (rev : Bool) (hd : (passes dir)[d]? = some rev) (attr : List A) (dflt : A) (k : ℕ) :
    actAt n dir (!rev) attr dflt k = attr.getD (d * n + k) dflt := by
  cases dir <;> rcases d with _ | _ | d <;> simp [passes] at hd <;> subst hd <;> simp only [actAt]
  all_goals
    simp
    first
    | done
    | (intro h; rw [List.getElem?_eq_none (by omega)]; rfl)

/-! ### The rewrites -/

/-- What an operation with `layout = 1` must return: the outputs of the operation with `layout = 0` on the transposed inputs,
with the batch as the first dimension. -/
structure LayoutResult (o o' : ROut R) : Prop where
  Y : ∀ y, o'.Y = some y → ∃ y', o.Y = some y' ∧ ∀ S D N hs, y.shape = [S, D, N, hs] → y'.shape = [N, S, D, hs] ∧
    ∀ t d b j, y'.data [b, t, d, j] = y.data [t, d, b, j]
  none : o'.Y = none → o.Y = none
  Yh : ∀ D N hs, o'.Yh.shape = [D, N, hs] → o.Yh.shape = [N, D, hs] ∧ ∀ d b j, o.Yh.data [b, d, j] = o'.Yh.data [d, b, j]
  Yc : ∀ D N hs, o'.Yc.shape = [D, N, hs] → o.Yc.shape = [N, D, hs] ∧ ∀ d b j, o.Yc.data [b, d, j] = o'.Yc.data [d, b, j]

/-- C79.  The rewrite of `layout = 1` hands the operation the input and the initial states with the batch and the other
dimension swapped, and swaps the dimensions of the results back. -/
theorem C79_layout (op : Mem R → Option (Mem R) → Option (Mem R) → Option (ROut R)) (X : Mem R) (initH initC : Option (Mem R)) (o : ROut R)
    (h : layoutRewrite op X initH initC = some o) :
    ∃ X' ih ic o', op X' ih ic = some o' ∧ LayoutResult o o' ∧
      (∀ S N I, X.shape = [N, S, I] → X'.shape = [S, N, I]) ∧ (∀ t b k, X'.data [t, b, k] = X.data [b, t, k]) ∧
      (ih.isSome = initH.isSome) ∧ (ic.isSome = initC.isSome) ∧
      (∀ D N hs, ∀ m, initH = some m → m.shape = [N, D, hs] → InitOk ih D N hs) ∧
      (∀ D N hs, ∀ m, initC = some m → m.shape = [N, D, hs] → InitOk ic D N hs) ∧
      (∀ m, initH = some m → ∀ d b j, initAt ih d b j = m.data [b, d, j]) ∧
      (∀ m, initC = some m → ∀ d b j, initAt ic d b j = m.data [b, d, j]) := by
  unfold layoutRewrite at h
  rw [Option.map_eq_some_iff] at h
  obtain ⟨o', e, rfl⟩ := h
  refine ⟨perm3 X, initH.map perm3, initC.map perm3, o', e, ⟨?_, ?_, ?_, ?_⟩, ?_, ?_, by simp, by simp, ?_, ?_, ?_, ?_⟩
  · intro y hy
    refine ⟨perm4 y, by simp [hy], ?_⟩
    intro S D N hs h
    exact ⟨by simp [perm4, h], fun t d b j => rfl⟩
  · intro h
    simp [h]
  · intro D N hs h
    exact ⟨by simp [perm3, h], fun d b j => rfl⟩
  · intro D N hs h
    exact ⟨by simp [perm3, h], fun d b j => rfl⟩
  · intro S N I h
    simp [perm3, h]
  · intro t b k
    rfl
  · intro D N hs m hm h m' hm'
    subst hm
    simp only [Option.map_some, Option.some.injEq] at hm'
    subst hm'
    simp [perm3, h]
  · intro D N hs m hm h m' hm'
    subst hm
    simp only [Option.map_some, Option.some.injEq] at hm'
    subst hm'
    simp [perm3, h]
  · intro m hm d b j
    subst hm
    rfl
  · intro m hm d b j
    subst hm
    rfl

/-- The whole of C79 for `layout = 1`, on GRU: Y[b, t, d, j] and Y_h[b, d, j]. -/
theorem C79_gru_layout1 (dir : RDir) (lin : Bool) (a : Bool → (R → R) × (R → R)) (X : Mem R) (w : RWeights R) (lens : Option (Mem ℤ)) (initH : Option (Mem R))
    (hasY : Bool) (junk : Idx → R) (S N I hs : ℤ) (hX : X.shape = [N, S, I]) (hS : 0 ≤ S) (hw : WOk w (passes dir).length 3 I hs)
    (hH : InitOk initH N (passes dir).length hs)
    (hl : ∀ L, lens = some L → L.shape = [N] ∧ ∀ b, 0 ≤ b → b < N → 0 ≤ L.data [b] ∧ L.data [b] ≤ S) :
    ∃ o, layoutRewrite (fun X ih _ => gruOp dir lin a X w.W w.Rw w.B lens ih hasY junk) X initH none = some o ∧
      o.Yh.shape = [N, ((passes dir).length : ℤ), hs] ∧
      ∀ (d : ℕ) (rev : Bool), (passes dir)[d]? = some rev → ∀ b j, 0 ≤ b → b < N → 0 ≤ j → j < hs →
        o.Yh.data [b, (d : ℤ), j] = (stateAfter (gruCell lin (a (!rev)).1 (a (!rev)).2 w I hs d) rev (fun t k => X.data [b, t, k]) (lenOf lens S b)
          ⟨fun j => initAt initH b d j, fun _ => 0⟩ (lenOf lens S b).toNat).h j := by
  have hH' : InitOk (initH.map perm3) (passes dir).length N hs := by
    intro m hm
    rw [Option.map_eq_some_iff] at hm
    obtain ⟨m', h1, rfl⟩ := hm
    simp [perm3, hH m' h1]
  obtain ⟨o, e, r⟩ := C79_gru dir lin a (perm3 X) w lens (initH.map perm3) hasY junk S N I hs (by simp [perm3, hX]) hS hw hH' hl
  refine ⟨⟨o.Y.map perm4, perm3 o.Yh, perm3 o.Yc⟩, ?_, ?_, ?_⟩
  · unfold layoutRewrite
    simp only
    rw [e]
    rfl
  · simp [perm3, r.shapeYh]
  · intro d rev hd b j b0 b1 j0 j1
    have := r.valYh d rev hd b j b0 b1 j0 j1
    rw [List.getD_eq_getElem?_getD, hd] at this
    simp only [Option.getD_some] at this
    refine this.trans ?_
    have h1 : (fun t k => (perm3 X).data [t, b, k]) = fun t k => X.data [b, t, k] := rfl
    have h2 : initAt (initH.map perm3) d b = fun j => initAt initH b d j := by
      funext j
      cases initH <;> rfl
    rw [h1, h2]
    rfl

/-- C79 fails for the rewrite that drops `sequence_lens` when the batch has size 1: the single sequence may be shorter than the input.
Both the lowering with the lengths and the one without them run, with different results. -/
theorem C79_drop_seqlens_false : ∃ (a : Bool → (ℤ → ℤ) × (ℤ → ℤ)) (X : Mem ℤ) (w : RWeights ℤ) (L : Mem ℤ),
    X.shape = [2, 1, 1] ∧ WOk w (passes .forward).length 3 1 1 ∧ L.shape = [1] ∧ (0 ≤ L.data [0] ∧ L.data [0] ≤ 2) ∧
    dropSeqLens (X.shape.map some) (L.shape.map some) none = true ∧
    ∃ o o', gruOp .forward false a X w.W w.Rw w.B (some L) none true (fun _ => 0) = some o ∧
      gruOp .forward false a X w.W w.Rw w.B none none true (fun _ => 0) = some o' ∧ o.Yh.data [0, 0, 0] ≠ o'.Yh.data [0, 0, 0] := by
  refine ⟨fun _ => (fun x => x, fun x => x), ⟨[2, 1, 1], fun i => if i = [0, 0, 0] then 3 else 5⟩, ⟨⟨[1, 3, 1], fun i => if i = [0, 2, 0] then 1 else 0⟩,
    ⟨[1, 3, 1], fun _ => 0⟩, none⟩, ⟨[1], fun _ => 1⟩, rfl, ⟨rfl, rfl, by intro m hm; cases hm⟩, rfl, by simp, by decide, ?_⟩
  obtain ⟨o, e, r⟩ := C79_gru .forward false (fun _ => (fun x => x, fun x => x)) (⟨[2, 1, 1], fun i => if i = [0, 0, 0] then 3 else 5⟩ : Mem ℤ)
    ⟨⟨[1, 3, 1], fun i => if i = [0, 2, 0] then 1 else 0⟩, ⟨[1, 3, 1], fun _ => 0⟩, none⟩ (some ⟨[1], fun _ => 1⟩) none true (fun _ => 0) 2 1 1 1 rfl
    (by omega) ⟨rfl, rfl, by intro m hm; cases hm⟩ (by intro m hm; cases hm)
    (by intro L hL; cases hL; exact ⟨rfl, fun b _ _ => by simp⟩)
  obtain ⟨o', e', r'⟩ := C79_gru .forward false (fun _ => (fun x => x, fun x => x)) (⟨[2, 1, 1], fun i => if i = [0, 0, 0] then 3 else 5⟩ : Mem ℤ)
    ⟨⟨[1, 3, 1], fun i => if i = [0, 2, 0] then 1 else 0⟩, ⟨[1, 3, 1], fun _ => 0⟩, none⟩ none none true (fun _ => 0) 2 1 1 1 rfl
    (by omega) ⟨rfl, rfl, by intro m hm; cases hm⟩ (by intro m hm; cases hm) (by intro L hL; cases hL)
  refine ⟨o, o', e, e', ?_⟩
  have h1 := r.valYh 0 false rfl 0 0 (by omega) (by omega) (by omega) (by omega)
  have h2 := r'.valYh 0 false rfl 0 0 (by omega) (by omega) (by omega) (by omega)
  simp only [Nat.cast_zero] at h1 h2
  rw [h1, h2]
  decide +kernel

/-- C79.  What does hold of that rewrite: nothing changes when the sequences have full length.  Missing: shorter sequences, for which it is false. -/
theorem C79_drop_seqlens_partial (dir : RDir) (lin : Bool) (a : Bool → (R → R) × (R → R)) (X : Mem R) (w : RWeights R) (L : Mem ℤ) (initH : Option (Mem R))
    (hasY : Bool) (junk : Idx → R) (S N I hs : ℤ) (hX : X.shape = [S, N, I]) (hS : 0 ≤ S) (hw : WOk w (passes dir).length 3 I hs)
    (hH : InitOk initH (passes dir).length N hs) (hL : L.shape = [N]) (hfull : ∀ b, 0 ≤ b → b < N → L.data [b] = S) :
    ∃ o o', gruOp dir lin a X w.W w.Rw w.B (some L) initH hasY junk = some o ∧ gruOp dir lin a X w.W w.Rw w.B none initH hasY junk = some o' ∧
      (∀ (d : ℕ) (rev : Bool), (passes dir)[d]? = some rev → ∀ b j, 0 ≤ b → b < N → 0 ≤ j → j < hs →
        o.Yh.data [(d : ℤ), b, j] = o'.Yh.data [(d : ℤ), b, j]) ∧
      (∀ y y', o.Y = some y → o'.Y = some y' → ∀ (d : ℕ) (rev : Bool), (passes dir)[d]? = some rev → ∀ t b j, 0 ≤ t → t < S → 0 ≤ b → b < N →
        0 ≤ j → j < hs → y.data [t, d, b, j] = y'.data [t, d, b, j]) := by
  obtain ⟨o, e, r⟩ := C79_gru dir lin a X w (some L) initH hasY junk S N I hs hX hS hw hH
    (by intro L' h; cases h; exact ⟨hL, fun b b0 b1 => by rw [hfull b b0 b1]; exact ⟨hS, le_refl _⟩⟩)
  obtain ⟨o', e', r'⟩ := C79_gru dir lin a X w none initH hasY junk S N I hs hX hS hw hH (by intro L' h; cases h)
  refine ⟨o, o', e, e', ?_, ?_⟩
  · intro d rev hd b j b0 b1 j0 j1
    rw [r.valYh d rev hd b j b0 b1 j0 j1, r'.valYh d rev hd b j b0 b1 j0 j1]
    rw [show lenOf (some L) S b = S from hfull b b0 b1, show lenOf none S b = S from rfl]
  · intro y y' hy hy' d rev hd t b j t0 t1 b0 b1 j0 j1
    rw [r.valY y hy d rev hd t b j t0 t1 b0 b1 j0 j1, r'.valY y' hy' d rev hd t b j t0 t1 b0 b1 j0 j1]
    rw [show lenOf (some L) S b = S from hfull b b0 b1, show lenOf none S b = S from rfl]

end

end Verif.Props
