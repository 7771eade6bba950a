import Verif.Lower.RnnTop

/-!
One step of each recurrent operation.
-/

namespace Verif.Lower

section
variable {R : Type*} [CommRing R]

/-- Index of a pass. -/
def dIdx (dir : RDir) (fwd : Bool) : ℤ := if dir = .bidirectional ∧ fwd = false then 1 else 0

theorem dIdx_pass (dir : RDir) (d : ℕ) (rev : Bool) (h : (passes dir)[d]? = some rev) : dIdx dir (!rev) = d := by
  cases dir <;> rcases d with _ | _ | d <;> simp [passes] at h <;> subst h <;> decide

theorem dirPart_data (dir : RDir) (fwd : Bool) (m : Mem R) (D : ℤ) (hm : m.shape.headD 0 = D)
    (hD : D = (passes dir).length) (i : Idx) : (dirPart dir fwd m).data i = m.data (dIdx dir fwd :: i) := by
  cases dir
  · simp [dirPart, squeeze0, dIdx]
  · simp [dirPart, squeeze0, dIdx]
  · simp only [dirPart, squeeze0, split0, dIdx]
    rw [hm, hD]
    cases fwd <;> simp [passes]

theorem dirPart_shape (dir : RDir) (fwd : Bool) (m : Mem R) : (dirPart dir fwd m).shape = m.shape.tail := by
  cases dir <;> rfl

/-- The product with the transposed weights of a pass. -/
theorem matmul_wt (dir : RDir) (fwd : Bool) (A W : Mem R) (D N K M : ℤ) (hA : A.shape.headD 0 = N) (hW : W.shape = [D, M, K])
    (hD : D = (passes dir).length) :
    (matmul2 A (transpose2 (dirPart dir fwd W))).shape = [N, M] ∧
    ∀ b c, (matmul2 A (transpose2 (dirPart dir fwd W))).data [b, c] = rowDot (fun k => A.data [b, k]) W (dIdx dir fwd) c K := by
  have hs : (dirPart dir fwd W).shape = [M, K] := by rw [dirPart_shape, hW]; rfl
  refine ⟨?_, ?_⟩
  · simp only [matmul2, transpose2, hs, hA]
    rfl
  · intro b c
    simp only [matmul2, transpose2, hs, rowDot]
    refine congrArg List.sum (List.map_congr_left fun k _ => ?_)
    rw [dirPart_data dir fwd W D (by rw [hW]; rfl) hD]
    rfl

theorem gateBias_ok (dir : RDir) (fwd : Bool) (B : Option (Mem R)) (D hs k p j : ℤ) (hB : ∀ m, B = some m → m.shape = [D, k * hs])
    (hD : D = (passes dir).length) (hk : 0 < k) (hj0 : 0 ≤ j) (hj1 : j < hs) :
    ∃ o, gateBias (B.map (dirPart dir fwd)) k p j = some o ∧ (∀ x, addOpt x o = x + optAt B (dIdx dir fwd) (p * hs + j)) ∧
      (∀ x c, addOpt x (o.map (· * c)) = x + optAt B (dIdx dir fwd) (p * hs + j) * c) := by
  match B, hB with
  | none, _ => exact ⟨none, rfl, fun x => by simp [addOpt, optAt], fun x c => by simp [addOpt, optAt]⟩
  | some m, hB =>
    have hm := hB m rfl
    have hsh : (dirPart dir fwd m).shape = [k * hs] := by rw [dirPart_shape, hm]; rfl
    have hdiv : k * hs / k = hs := Int.mul_ediv_cancel_left _ (by omega)
    refine ⟨some (m.data [dIdx dir fwd, p * hs + j]), ?_, fun x => rfl, fun x c => rfl⟩
    simp only [gateBias, Option.map_some]
    have hs2 : (split0 (dirPart dir fwd m) k p).shape = [hs] := by
      simp only [split0, hsh, List.headD_cons, List.tail_cons, hdiv]
    rw [load_in _ _ (by rw [hs2]; simp [inShape_cons, inShape_nil, hj0, hj1])]
    simp only [split0, hsh, List.headD_cons, List.tail_cons, hdiv, Option.map_some]
    rw [dirPart_data dir fwd m D (by rw [hm]; rfl) hD]

/-- The shapes of the weights. -/
structure WOk (w : RWeights R) (D G I hs : ℤ) : Prop where
  W : w.W.shape = [D, G * hs, I]
  Rw : w.Rw.shape = [D, G * hs, hs]
  B : ∀ m, w.B = some m → m.shape = [D, 2 * G * hs]

theorem rowDot_congr (n : ℤ) (a b : ℤ → R) (h : Agree n a b) (M : Mem R) (d r : ℤ) : rowDot a M d r n = rowDot b M d r n := by
  unfold rowDot
  refine congrArg List.sum (List.map_congr_left fun k hk => ?_)
  have := mem_upto.1 hk
  rw [h k this.1 this.2]

theorem gateSum_congr (w : RWeights R) (I hs G d g : ℤ) (x x' h h' : ℤ → R) (hx : Agree I x x') (hh : Agree hs h h') (j : ℤ) :
    gateSum w I hs G d g x h j = gateSum w I hs G d g x' h' j := by
  unfold gateSum
  rw [rowDot_congr I x x' hx, rowDot_congr hs h h' hh]

theorem rnnCell_ok (f : R → R) (w : RWeights R) (I hs d : ℤ) : CellOk I hs (rnnCell f w I hs d) := by
  intro x x' s s' hx hh hc
  refine ⟨fun j _ _ => ?_, hc⟩
  simp only [rnnCell]
  rw [gateSum_congr w I hs 1 d 0 x x' s.h s'.h hx hh]

theorem lstmCell_ok (a : LstmAct R) (w : RWeights R) (P : Option (Mem R)) (I hs d : ℤ) : CellOk I hs (lstmCell a w P I hs d) := by
  intro x x' s s' hx hh hc
  have hg : ∀ g j, gateSum w I hs 4 d g x s.h j = gateSum w I hs 4 d g x' s'.h j := fun g j =>
    gateSum_congr w I hs 4 d g x x' s.h s'.h hx hh j
  refine ⟨fun j h0 h1 => ?_, fun j h0 h1 => ?_⟩
  · simp only [lstmCell, hg, hc j h0 h1]
  · simp only [lstmCell, hg, hc j h0 h1]

theorem gruCell_ok (lin : Bool) (f g : R → R) (w : RWeights R) (I hs d : ℤ) : CellOk I hs (gruCell lin f g w I hs d) := by
  intro x x' s s' hx hh hc
  have hg : ∀ g j, gateSum w I hs 3 d g x s.h j = gateSum w I hs 3 d g x' s'.h j := fun g j =>
    gateSum_congr w I hs 3 d g x x' s.h s'.h hx hh j
  refine ⟨fun j h0 h1 => ?_, hc⟩
  have hrt : Agree hs (fun k => f (gateSum w I hs 3 d 1 x s.h k) * s.h k) (fun k => f (gateSum w I hs 3 d 1 x' s'.h k) * s'.h k) := by
    intro k k0 k1
    simp only [hg, hh k k0 k1]
  simp only [gruCell]
  rw [rowDot_congr hs _ _ hrt, rowDot_congr I x x' hx, rowDot_congr hs s.h s'.h hh, hh j h0 h1]
  simp only [hg]

/-- From the loop over the points to one step. -/
theorem stepOk_of_points (step : ℤ → Mem R → RState R → Option (RState R)) (S D N I hs d : ℤ) (cell : (ℤ → R) → Cell R → Cell R)
    (len : ℤ → ℤ) (pad : ℤ → ℤ → R) (hd0 : 0 ≤ d) (hd1 : d < D)
    (h : ∀ t Xt s0, 0 ≤ t → t < S → Xt.shape = [N, I] → StOk s0 S D N hs → ∃ body : Idx → RState R → Option (RState R),
      step t Xt s0 = iterate [N, hs] body s0 ∧
      ∀ b j s, 0 ≤ b → b < N → 0 ≤ j → j < hs → StOk s S D N hs → s.H.data [b, j] = s0.H.data [b, j] → s.C.data [b, j] = s0.C.data [b, j] →
        body [b, j] s = some (pointState s [b, j] t d
          (if t < len b then (cell (fun k => Xt.data [b, k]) (rowCell s0 b)).h j else s0.H.data [b, j])
          (if t < len b then (cell (fun k => Xt.data [b, k]) (rowCell s0 b)).c j else s0.C.data [b, j])
          (if t < len b then (cell (fun k => Xt.data [b, k]) (rowCell s0 b)).h j else pad b j))) :
    StepOk step S D N I hs d cell len pad := by
  intro t Xt s0 ht0 ht1 hX h0
  obtain ⟨body, e, hb⟩ := h t Xt s0 ht0 ht1 hX h0
  let hv : Idx → R := fun i => if t < len (i.getD 0 0) then (cell (fun k => Xt.data [i.getD 0 0, k]) (rowCell s0 (i.getD 0 0))).h (i.getD 1 0)
    else s0.H.data [i.getD 0 0, i.getD 1 0]
  let cv : Idx → R := fun i => if t < len (i.getD 0 0) then (cell (fun k => Xt.data [i.getD 0 0, k]) (rowCell s0 (i.getD 0 0))).c (i.getD 1 0)
    else s0.C.data [i.getD 0 0, i.getD 1 0]
  let yv : Idx → R := fun i => if t < len (i.getD 0 0) then (cell (fun k => Xt.data [i.getD 0 0, k]) (rowCell s0 (i.getD 0 0))).h (i.getD 1 0)
    else pad (i.getD 0 0) (i.getD 1 0)
  obtain ⟨s, e2, ok, sm, v1, v2, v3⟩ := pointLoop body S D N hs t d hv cv yv s0 h0 (by
    intro i s hi hs' h1 h2
    obtain ⟨b, j, rfl, q1, q2, q3, q4⟩ := inShape_two hi
    exact hb b j s q1 q2 q3 q4 hs' h1 h2) (idxs [N, hs]) (nodup_idxs _) (fun i hi => mem_idxs.1 hi)
  have hin : ∀ b j, 0 ≤ b → b < N → 0 ≤ j → j < hs → [b, j] ∈ idxs [N, hs] := fun b j a1 a2 a3 a4 =>
    mem_idxs.2 (inShape2.2 ⟨⟨a1, a2⟩, a3, a4⟩)
  refine ⟨s, by rw [e]; exact e2, ok, sm, ?_, ?_, ?_⟩
  · intro b j a1 a2 a3 a4
    rw [v1, if_pos (hin b j a1 a2 a3 a4)]
    rfl
  · intro b j a1 a2 a3 a4
    rw [v2, if_pos (hin b j a1 a2 a3 a4)]
    rfl
  · intro y y0 hy hy0
    refine ⟨?_, ?_⟩
    · intro b j a1 a2 a3 a4
      rw [v3 y y0 hy hy0, if_pos ⟨rfl, hin b j a1 a2 a3 a4⟩]
      rfl
    · intro t' d' b j hne
      rw [v3 y y0 hy hy0, if_neg]
      rintro ⟨q, _⟩
      simp only [List.take_succ_cons, List.take_zero, List.cons.injEq, and_true] at q
      rcases hne with h | h
      · exact h q.1
      · exact h q.2

theorem storeY_pt (s : RState R) (S D N hs t d b j : ℤ) (v : R) (ok : StOk s S D N hs) (ht0 : 0 ≤ t) (ht1 : t < S) (hd0 : 0 ≤ d) (hd1 : d < D)
    (hb0 : 0 ≤ b) (hb1 : b < N) (hj0 : 0 ≤ j) (hj1 : j < hs) :
    storeY s.Y (t :: d :: [b, j]) v = some (s.Y.map fun y => upd y (t :: d :: [b, j]) v) := by
  refine storeY_ok _ _ _ fun y hy => ?_
  rw [ok.Y y hy]
  exact inShape_cons.2 ⟨⟨ht0, ht1⟩, inShape_cons.2 ⟨⟨hd0, hd1⟩, inShape2.2 ⟨⟨hb0, hb1⟩, hj0, hj1⟩⟩⟩

/-! ### RNN -/

theorem rnnStep_ok (dir : RDir) (f : Bool → R → R) (w : RWeights R) (S D N I hs : ℤ) (fwd : Bool) (pad : ℤ → ℤ → R)
    (hD : D = (passes dir).length) (hd : dIdx dir fwd < D) (hw : WOk w D 1 I hs) (len : ℤ → ℤ) (hlen : ∀ b, len b = S) :
    StepOk (rnnCalc dir f w.W w.Rw w.B fwd (dIdx dir fwd)) S D N I hs (dIdx dir fwd) (rnnCell (f fwd) w I hs (dIdx dir fwd)) len pad := by
  have hd0 : 0 ≤ dIdx dir fwd := by unfold dIdx; split <;> omega
  refine stepOk_of_points _ S D N I hs _ _ len pad hd0 hd ?_
  intro t Xt s0 ht0 ht1 hX h0
  obtain ⟨x1, x2⟩ := matmul_wt dir fwd Xt w.W D N I (1 * hs) (by rw [hX]; rfl) hw.W hD
  obtain ⟨r1, r2⟩ := matmul_wt dir fwd s0.H w.Rw D N hs (1 * hs) (by rw [h0.H]; rfl) hw.Rw hD
  refine ⟨_, by unfold rnnCalc; rw [h0.H], ?_⟩
  intro b j s b0 b1 j0 j1 ok hH hC
  obtain ⟨wb, p1, p2, _⟩ := gateBias_ok dir fwd w.B D hs 2 0 j hw.B hD (by omega) j0 j1
  obtain ⟨rb, q1, q2, _⟩ := gateBias_ok dir fwd w.B D hs 2 1 j hw.B hD (by omega) j0 j1
  have hin : InShape [b, j] [N, hs] := inShape2.2 ⟨⟨b0, b1⟩, j0, j1⟩
  simp only [rnnPoint]
  rw [load_in _ _ (by rw [x1]; exact inShape2.2 ⟨⟨b0, b1⟩, by omega, by omega⟩)]
  simp only [Option.bind_some]
  rw [load_in _ _ (by rw [r1]; exact inShape2.2 ⟨⟨b0, b1⟩, by omega, by omega⟩)]
  simp only [Option.bind_some]
  rw [show ([b, j] : Idx).getD 1 0 = j from rfl, p1]
  simp only [Option.bind_some]
  rw [q1]
  simp only [Option.bind_some]
  rw [store_upd _ _ _ (by rw [ok.H]; exact hin)]
  simp only [Option.bind_some]
  rw [storeY_pt s S D N hs t _ b j _ ok ht0 ht1 hd0 hd b0 b1 j0 j1]
  simp only [Option.map_some, p2, q2, x2, r2, hlen b, if_pos ht1]
  have key : rowDot (fun k => Xt.data [b, k]) w.W (dIdx dir fwd) j I + rowDot (fun k => s0.H.data [b, k]) w.Rw (dIdx dir fwd) j hs +
      optAt w.B (dIdx dir fwd) (0 * hs + j) + optAt w.B (dIdx dir fwd) (1 * hs + j) =
      gateSum w I hs 1 (dIdx dir fwd) 0 (fun k => Xt.data [b, k]) (rowCell s0 b).h j := by
    unfold gateSum
    simp [rowCell]
  rw [key]
  simp only [pointState, rnnCell]
  rw [show (rowCell s0 b).c j = s.C.data [b, j] from hC.symm, upd_self]

/-! ### LSTM -/

theorem lstmGate_ok (dir : RDir) (fwd : Bool) (w : RWeights R) (D N I hs g b j : ℤ) (Xt H : Mem R) (hX : Xt.shape = [N, I]) (hH : H.shape = [N, hs])
    (hD : D = (passes dir).length) (hw : WOk w D 4 I hs) (hg0 : 0 ≤ g) (hg1 : g < 4) (b0 : 0 ≤ b) (b1 : b < N) (j0 : 0 ≤ j) (j1 : j < hs) :
    lstmGate (matmul2 Xt (transpose2 (dirPart dir fwd w.W))) (matmul2 H (transpose2 (dirPart dir fwd w.Rw))) (w.B.map (dirPart dir fwd)) hs g [b, j] =
      some (gateSum w I hs 4 (dIdx dir fwd) g (fun k => Xt.data [b, k]) (fun k => H.data [b, k]) j) := by
  obtain ⟨x1, x2⟩ := matmul_wt dir fwd Xt w.W D N I (4 * hs) (by rw [hX]; rfl) hw.W hD
  obtain ⟨r1, r2⟩ := matmul_wt dir fwd H w.Rw D N hs (4 * hs) (by rw [hH]; rfl) hw.Rw hD
  obtain ⟨wb, p1, p2, _⟩ := gateBias_ok dir fwd w.B D hs 8 g j hw.B hD (by omega) j0 j1
  obtain ⟨rb, q1, q2, _⟩ := gateBias_ok dir fwd w.B D hs 8 (4 + g) j hw.B hD (by omega) j0 j1
  have hc : 0 ≤ j + g * hs ∧ j + g * hs < 4 * hs := by
    have h1 : 0 ≤ g * hs := mul_nonneg hg0 (by omega)
    have h2 : g * hs ≤ 3 * hs := mul_le_mul_of_nonneg_right (by omega) (by omega)
    omega
  unfold lstmGate
  rw [show ([b, j] : Idx).getD 1 0 = j from rfl, show ([b, j] : Idx).getD 0 0 = b from rfl]
  rw [load_in _ _ (by rw [x1]; exact inShape2.2 ⟨⟨b0, b1⟩, hc⟩)]
  simp only [Option.bind_some]
  rw [load_in _ _ (by rw [r1]; exact inShape2.2 ⟨⟨b0, b1⟩, hc⟩)]
  simp only [Option.bind_some]
  rw [p1]
  simp only [Option.bind_some]
  rw [q1]
  simp only [Option.map_some, p2, q2, x2, r2]
  unfold gateSum
  rw [add_comm j (g * hs)]

theorem lstmStep_ok (dir : RDir) (a : Bool → LstmAct R) (w : RWeights R) (P : Option (Mem R)) (S D N I hs : ℤ) (fwd : Bool) (pad : ℤ → ℤ → R)
    (hD : D = (passes dir).length) (hd : dIdx dir fwd < D) (hw : WOk w D 4 I hs) (hP : ∀ m, P = some m → m.shape = [D, 3 * hs])
    (len : ℤ → ℤ) (hlen : ∀ b, len b = S) :
    StepOk (lstmCalc dir a w.W w.Rw w.B P fwd (dIdx dir fwd)) S D N I hs (dIdx dir fwd) (lstmCell (a fwd) w P I hs (dIdx dir fwd)) len pad := by
  have hd0 : 0 ≤ dIdx dir fwd := by unfold dIdx; split <;> omega
  refine stepOk_of_points _ S D N I hs _ _ len pad hd0 hd ?_
  intro t Xt s0 ht0 ht1 hX h0
  refine ⟨_, by unfold lstmCalc; rw [h0.H], ?_⟩
  intro b j s b0 b1 j0 j1 ok hH hC
  have hG : ∀ g : ℤ, 0 ≤ g → g < 4 → _ := fun g g0 g1 => lstmGate_ok dir fwd w D N I hs g b j Xt s0.H hX h0.H hD hw g0 g1 b0 b1 j0 j1
  obtain ⟨pi, p1, _, p2⟩ := gateBias_ok dir fwd P D hs 3 0 j hP hD (by omega) j0 j1
  obtain ⟨po, q1, _, q2⟩ := gateBias_ok dir fwd P D hs 3 1 j hP hD (by omega) j0 j1
  obtain ⟨pf, r1, _, r2⟩ := gateBias_ok dir fwd P D hs 3 2 j hP hD (by omega) j0 j1
  have hin : InShape [b, j] [N, hs] := inShape2.2 ⟨⟨b0, b1⟩, j0, j1⟩
  have hhs : s.H.shape.getD 1 0 = hs := by rw [ok.H]; rfl
  simp only [hhs, lstmPoint]
  rw [load_in s.C _ (by rw [ok.C]; exact hin)]
  simp only [Option.bind_some]
  rw [hG 0 (by omega) (by omega)]
  simp only [Option.bind_some]
  rw [show ([b, j] : Idx).getD 1 0 = j from rfl, p1]
  simp only [Option.bind_some]
  rw [hG 2 (by omega) (by omega)]
  simp only [Option.bind_some]
  rw [r1]
  simp only [Option.bind_some]
  rw [hG 3 (by omega) (by omega)]
  simp only [Option.bind_some]
  rw [hG 1 (by omega) (by omega)]
  simp only [Option.bind_some]
  rw [q1]
  simp only [Option.bind_some]
  rw [store_upd s.C _ _ (by rw [ok.C]; exact hin)]
  simp only [Option.bind_some]
  rw [store_upd s.H _ _ (by rw [ok.H]; exact hin)]
  simp only [Option.bind_some]
  rw [storeY_pt s S D N hs t _ b j _ ok ht0 ht1 hd0 hd b0 b1 j0 j1]
  simp only [Option.map_some, p2, q2, r2, hC, hlen b, if_pos ht1, pointState, lstmCell, rowCell]

/-! ### GRU -/

theorem gruGate_ok (dir : RDir) (fwd : Bool) (f : R → R) (w : RWeights R) (D N I hs g b j : ℤ) (Xt : Mem R) (hr : R) (hX : Xt.shape = [N, I])
    (hD : D = (passes dir).length) (hw : WOk w D 3 I hs) (hg0 : 0 ≤ g) (hg1 : g < 3) (b0 : 0 ≤ b) (b1 : b < N) (j0 : 0 ≤ j) (j1 : j < hs)
    (h : ℤ → R) (hh : hr = rowDot h w.Rw (dIdx dir fwd) (g * hs + j) hs) :
    gruGate f (matmul2 Xt (transpose2 (dirPart dir fwd w.W))) hr (w.B.map (dirPart dir fwd)) hs g [b, j] =
      some (f (gateSum w I hs 3 (dIdx dir fwd) g (fun k => Xt.data [b, k]) h j)) := by
  obtain ⟨x1, x2⟩ := matmul_wt dir fwd Xt w.W D N I (3 * hs) (by rw [hX]; rfl) hw.W hD
  obtain ⟨wb, p1, p2, _⟩ := gateBias_ok dir fwd w.B D hs 6 g j hw.B hD (by omega) j0 j1
  obtain ⟨rb, q1, q2, _⟩ := gateBias_ok dir fwd w.B D hs 6 (3 + g) j hw.B hD (by omega) j0 j1
  have hc : 0 ≤ j + g * hs ∧ j + g * hs < 3 * hs := by
    have h1 : 0 ≤ g * hs := mul_nonneg hg0 (by omega)
    have h2 : g * hs ≤ 2 * hs := mul_le_mul_of_nonneg_right (by omega) (by omega)
    omega
  unfold gruGate
  rw [show ([b, j] : Idx).getD 1 0 = j from rfl, show ([b, j] : Idx).getD 0 0 = b from rfl]
  rw [load_in _ _ (by rw [x1]; exact inShape2.2 ⟨⟨b0, b1⟩, hc⟩)]
  simp only [Option.bind_some]
  rw [p1]
  simp only [Option.bind_some]
  rw [q1]
  simp only [Option.map_some, p2, q2, x2, hh]
  unfold gateSum
  rw [add_comm j (g * hs)]

/-- The length of a sequence. -/
def lenOf (lens : Option (Mem ℤ)) (S b : ℤ) : ℤ := match lens with | none => S | some L => L.data [b]

theorem gruFinish_ok (lens : Option (Mem ℤ)) (initH : Option (Mem R)) (s s0 : RState R) (S D N hs t d b j : ℤ) (z h old : R) (ok : StOk s S D N hs)
    (hl : ∀ L, lens = some L → L.shape = [N]) (hI : InitOk initH D N hs) (hH : s.H.data [b, j] = s0.H.data [b, j])
    (hC : s.C.data [b, j] = s0.C.data [b, j]) (ht0 : 0 ≤ t) (ht1 : t < S) (hd0 : 0 ≤ d) (hd1 : d < D) (b0 : 0 ≤ b) (b1 : b < N)
    (j0 : 0 ≤ j) (j1 : j < hs) :
    gruFinish lens initH t d [b, j] z h old s = some (pointState s [b, j] t d
      (if t < lenOf lens S b then (1 - z) * h + z * old else s0.H.data [b, j]) (s0.C.data [b, j])
      (if t < lenOf lens S b then (1 - z) * h + z * old else initAt initH d b j)) := by
  have hin : InShape [b, j] [N, hs] := inShape2.2 ⟨⟨b0, b1⟩, j0, j1⟩
  unfold gruFinish
  have : seqLensSel lens initH t d [b, j] ((1 - z) * h + z * old) s.H = some
      (if t < lenOf lens S b then (1 - z) * h + z * old else initAt initH d b j,
        upd s.H [b, j] (if t < lenOf lens S b then (1 - z) * h + z * old else s0.H.data [b, j])) := by
    unfold seqLensSel lenOf
    match lens, hl with
    | none, _ =>
      simp only [if_pos ht1]
      rw [store_upd _ _ _ (by rw [ok.H]; exact hin)]
      rfl
    | some L, hl =>
      simp only
      have hL : L.load [([b, j] : Idx).getD 0 0] = some (L.data [b]) := by
        unfold Mem.load
        rw [if_pos]
        · rfl
        · rw [hl L rfl]
          simp [inShape_cons, inShape_nil, b0, b1]
      rw [hL]
      simp only [Option.bind_some]
      rw [initVal_ok initH D N hs d hI hd0 hd1 b j hin]
      simp only [Option.bind_some]
      rw [load_in _ _ (by rw [ok.H]; exact hin)]
      simp only [Option.bind_some]
      rw [store_upd _ _ _ (by rw [ok.H]; exact hin)]
      by_cases hlt : t < L.data [b]
      · have : ¬ t ≥ L.data [b] := by omega
        simp only [if_pos hlt, if_neg this, Option.map_some]
      · have : t ≥ L.data [b] := by omega
        simp only [if_neg hlt, if_pos this, Option.map_some, hH]
  rw [this]
  simp only [Option.bind_some]
  rw [storeY_pt s S D N hs t d b j _ ok ht0 ht1 hd0 hd1 b0 b1 j0 j1]
  simp only [Option.map_some, pointState]
  rw [← hC, upd_self]

theorem ite_same (P : Prop) [Decidable P] (a : R) : (if P then a else a) = a := by split <;> rfl

theorem gruStepLin_ok (dir : RDir) (a : Bool → (R → R) × (R → R)) (w : RWeights R) (lens : Option (Mem ℤ)) (initH : Option (Mem R)) (junk : Idx → R)
    (S D N I hs : ℤ) (fwd : Bool)
    (hD : D = (passes dir).length) (hd : dIdx dir fwd < D) (hw : WOk w D 3 I hs) (hI : InitOk initH D N hs)
    (hl : ∀ L, lens = some L → L.shape = [N]) :
    StepOk (gruCalc dir true a w.W w.Rw w.B lens initH junk fwd (dIdx dir fwd)) S D N I hs (dIdx dir fwd)
      (gruCell true (a fwd).1 (a fwd).2 w I hs (dIdx dir fwd)) (lenOf lens S) (initAt initH (dIdx dir fwd)) := by
  have hd0 : 0 ≤ dIdx dir fwd := by unfold dIdx; split <;> omega
  refine stepOk_of_points _ S D N I hs _ _ _ _ hd0 hd ?_
  intro t Xt s0 ht0 ht1 hX h0
  have hhs : s0.H.shape.getD 1 0 = hs := by rw [h0.H]; rfl
  refine ⟨_, by unfold gruCalc; simp only [if_true]; rw [hhs, h0.H], ?_⟩
  intro b j s b0 b1 j0 j1 ok hH hC
  obtain ⟨x1, x2⟩ := matmul_wt dir fwd Xt w.W D N I (3 * hs) (by rw [hX]; rfl) hw.W hD
  obtain ⟨r1, r2⟩ := matmul_wt dir fwd s0.H w.Rw D N hs (3 * hs) (by rw [h0.H]; rfl) hw.Rw hD
  obtain ⟨wb, p1, p2, _⟩ := gateBias_ok dir fwd w.B D hs 6 2 j hw.B hD (by omega) j0 j1
  obtain ⟨rb, q1, q2, _⟩ := gateBias_ok dir fwd w.B D hs 6 5 j hw.B hD (by omega) j0 j1
  have hin : InShape [b, j] [N, hs] := inShape2.2 ⟨⟨b0, b1⟩, j0, j1⟩
  have c0 : (0 ≤ j ∧ j < 3 * hs) ∧ (0 ≤ j + hs ∧ j + hs < 3 * hs) ∧ (0 ≤ j + 2 * hs ∧ j + 2 * hs < 3 * hs) := by omega
  unfold gruPointLin
  simp only [show ([b, j] : Idx).getD 1 0 = j from rfl, show ([b, j] : Idx).getD 0 0 = b from rfl]
  rw [load_in s.H _ (by rw [ok.H]; exact hin)]
  simp only [Option.bind_some]
  rw [load_in (matmul2 s0.H _) _ (by rw [r1]; exact inShape2.2 ⟨⟨b0, b1⟩, c0.1⟩)]
  simp only [Option.bind_some]
  rw [gruGate_ok dir fwd (a fwd).1 w D N I hs 0 b j Xt _ hX hD hw (by omega) (by omega) b0 b1 j0 j1 (fun k => s0.H.data [b, k])
    (by rw [r2]; simp)]
  simp only [Option.bind_some]
  rw [load_in (matmul2 s0.H _) _ (by rw [r1]; exact inShape2.2 ⟨⟨b0, b1⟩, c0.2.1⟩)]
  simp only [Option.bind_some]
  rw [gruGate_ok dir fwd (a fwd).1 w D N I hs 1 b j Xt _ hX hD hw (by omega) (by omega) b0 b1 j0 j1 (fun k => s0.H.data [b, k])
    (by rw [r2, one_mul, add_comm])]
  simp only [Option.bind_some]
  rw [load_in (matmul2 Xt _) _ (by rw [x1]; exact inShape2.2 ⟨⟨b0, b1⟩, c0.2.2⟩)]
  simp only [Option.bind_some]
  rw [load_in (matmul2 s0.H _) _ (by rw [r1]; exact inShape2.2 ⟨⟨b0, b1⟩, c0.2.2⟩)]
  simp only [Option.bind_some]
  rw [q1]
  simp only [Option.bind_some]
  rw [p1]
  simp only [Option.bind_some]
  rw [gruFinish_ok lens initH s s0 S D N hs t _ b j _ _ _ ok hl hI hH hC ht0 ht1 hd0 hd b0 b1 j0 j1]
  simp only [p2, q2, x2, r2, hH, gruCell, if_true, rowCell, ite_same, add_comm j (2 * hs)]

theorem matmul_split (dir : RDir) (fwd : Bool) (A W : Mem R) (D N hs p : ℤ) (hA : A.shape.headD 0 = N) (hW : W.shape = [D, 3 * hs, hs])
    (hD : D = (passes dir).length) :
    (matmul2 A (transpose2 (split0 (dirPart dir fwd W) 3 p))).shape = [N, hs] ∧
    ∀ b c, (matmul2 A (transpose2 (split0 (dirPart dir fwd W) 3 p))).data [b, c] = rowDot (fun k => A.data [b, k]) W (dIdx dir fwd) (p * hs + c) hs := by
  have hs1 : (dirPart dir fwd W).shape = [3 * hs, hs] := by rw [dirPart_shape, hW]; rfl
  have hdiv : 3 * hs / 3 = hs := Int.mul_ediv_cancel_left _ (by omega)
  refine ⟨?_, ?_⟩
  · simp only [matmul2, transpose2, split0, hs1, hA, List.headD_cons, hdiv]
    rfl
  · intro b c
    simp only [matmul2, transpose2, split0, hs1, rowDot, List.headD_cons, hdiv]
    refine congrArg List.sum (List.map_congr_left fun k _ => ?_)
    rw [dirPart_data dir fwd W D (by rw [hW]; rfl) hD]
    rfl

theorem gruReset_ok (dir : RDir) (fwd : Bool) (f : R → R) (w : RWeights R) (D N I hs : ℤ) (Xt H : Mem R) (junk : Idx → R)
    (hX : Xt.shape = [N, I]) (hH : H.shape = [N, hs]) (hD : D = (passes dir).length) (hw : WOk w D 3 I hs) :
    ∃ m, gruReset f (matmul2 Xt (transpose2 (dirPart dir fwd w.W))) (matmul2 H (transpose2 (split0 (dirPart dir fwd w.Rw) 3 1)))
        (w.B.map (dirPart dir fwd)) hs H junk = some m ∧ m.shape = [N, hs] ∧
      ∀ b j, 0 ≤ b → b < N → 0 ≤ j → j < hs → m.data [b, j] =
        f (gateSum w I hs 3 (dIdx dir fwd) 1 (fun k => Xt.data [b, k]) (fun k => H.data [b, k]) j) * H.data [b, j] := by
  obtain ⟨r1, r2⟩ := matmul_split dir fwd H w.Rw D N hs 1 (by rw [hH]; rfl) hw.Rw hD
  unfold gruReset
  obtain ⟨o, e, es, ev⟩ := fill_spec (⟨H.shape, junk⟩ : Mem R) (fun i => (H.load i).bind fun old =>
      ((matmul2 H (transpose2 (split0 (dirPart dir fwd w.Rw) 3 1))).load i).bind fun hr =>
        (gruGate f (matmul2 Xt (transpose2 (dirPart dir fwd w.W))) hr (w.B.map (dirPart dir fwd)) hs 1 i).map fun r => r * old)
    (fun i => f (gateSum w I hs 3 (dIdx dir fwd) 1 (fun k => Xt.data [i.getD 0 0, k]) (fun k => H.data [i.getD 0 0, k]) (i.getD 1 0)) * H.data i) (by
      intro i hi
      simp only [hH] at hi
      obtain ⟨b, j, rfl, b0, b1, j0, j1⟩ := inShape_two hi
      rw [load_in H _ (by rw [hH]; exact hi)]
      simp only [Option.bind_some]
      rw [load_in _ _ (by rw [r1]; exact hi)]
      simp only [Option.bind_some]
      rw [gruGate_ok dir fwd f w D N I hs 1 b j Xt _ hX hD hw (by omega) (by omega) b0 b1 j0 j1 (fun k => H.data [b, k]) (r2 b j)]
      rfl)
  refine ⟨o, e, by rw [es, hH], ?_⟩
  intro b j b0 b1 j0 j1
  exact ev [b, j] (by simp only [hH]; exact inShape2.2 ⟨⟨b0, b1⟩, j0, j1⟩)

theorem gruStepNl_ok (dir : RDir) (a : Bool → (R → R) × (R → R)) (w : RWeights R) (lens : Option (Mem ℤ)) (initH : Option (Mem R)) (junk : Idx → R)
    (S D N I hs : ℤ) (fwd : Bool)
    (hD : D = (passes dir).length) (hd : dIdx dir fwd < D) (hw : WOk w D 3 I hs) (hI : InitOk initH D N hs)
    (hl : ∀ L, lens = some L → L.shape = [N]) :
    StepOk (gruCalc dir false a w.W w.Rw w.B lens initH junk fwd (dIdx dir fwd)) S D N I hs (dIdx dir fwd)
      (gruCell false (a fwd).1 (a fwd).2 w I hs (dIdx dir fwd)) (lenOf lens S) (initAt initH (dIdx dir fwd)) := by
  have hd0 : 0 ≤ dIdx dir fwd := by unfold dIdx; split <;> omega
  refine stepOk_of_points _ S D N I hs _ _ _ _ hd0 hd ?_
  intro t Xt s0 ht0 ht1 hX h0
  have hhs : s0.H.shape.getD 1 0 = hs := by rw [h0.H]; rfl
  obtain ⟨rh, g1, g2, g3⟩ := gruReset_ok dir fwd (a fwd).1 w D N I hs Xt s0.H junk hX h0.H hD hw
  obtain ⟨x1, x2⟩ := matmul_wt dir fwd Xt w.W D N I (3 * hs) (by rw [hX]; rfl) hw.W hD
  obtain ⟨z1, z2⟩ := matmul_split dir fwd s0.H w.Rw D N hs 0 (by rw [h0.H]; rfl) hw.Rw hD
  obtain ⟨m1, m2⟩ := matmul_split dir fwd rh w.Rw D N hs 2 (by rw [g2]; rfl) hw.Rw hD
  refine ⟨_, by
    unfold gruCalc
    simp only [Bool.false_eq_true, if_false]
    rw [hhs, g1]
    simp only [Option.bind_some]
    rw [h0.H], ?_⟩
  intro b j s b0 b1 j0 j1 ok hH hC
  obtain ⟨wb, p1, p2, _⟩ := gateBias_ok dir fwd w.B D hs 6 2 j hw.B hD (by omega) j0 j1
  obtain ⟨rb, q1, q2, _⟩ := gateBias_ok dir fwd w.B D hs 6 5 j hw.B hD (by omega) j0 j1
  have hin : InShape [b, j] [N, hs] := inShape2.2 ⟨⟨b0, b1⟩, j0, j1⟩
  unfold gruPoint
  simp only [show ([b, j] : Idx).getD 1 0 = j from rfl, show ([b, j] : Idx).getD 0 0 = b from rfl]
  rw [load_in s.H _ (by rw [ok.H]; exact hin)]
  simp only [Option.bind_some]
  rw [load_in (matmul2 s0.H _) _ (by rw [z1]; exact hin)]
  simp only [Option.bind_some]
  rw [gruGate_ok dir fwd (a fwd).1 w D N I hs 0 b j Xt _ hX hD hw (by omega) (by omega) b0 b1 j0 j1 (fun k => s0.H.data [b, k])
    (by rw [z2])]
  simp only [Option.bind_some]
  rw [load_in (matmul2 Xt _) _ (by rw [x1]; exact inShape2.2 ⟨⟨b0, b1⟩, by omega, by omega⟩)]
  simp only [Option.bind_some]
  rw [load_in (matmul2 rh _) _ (by rw [m1]; exact hin)]
  simp only [Option.bind_some]
  rw [p1]
  simp only [Option.bind_some]
  rw [q1]
  simp only [Option.bind_some]
  rw [gruFinish_ok lens initH s s0 S D N hs t _ b j _ _ _ ok hl hI hH hC ht0 ht1 hd0 hd b0 b1 j0 j1]
  have hrt : Agree hs (fun k => rh.data [b, k]) (fun k => (a fwd).1 (gateSum w I hs 3 (dIdx dir fwd) 1 (fun k => Xt.data [b, k]) (fun k => s0.H.data [b, k]) k) *
      s0.H.data [b, k]) := fun k k0 k1 => g3 b k b0 b1 k0 k1
  simp only [p2, q2, x2, m2, hH, gruCell, rowCell, ite_same, add_comm j (2 * hs), Bool.false_eq_true, if_false]
  rw [rowDot_congr hs _ _ hrt]
  rw [add_right_comm (_ + _) (optAt w.B (dIdx dir fwd) (2 * hs + j))]

end

end Verif.Lower
