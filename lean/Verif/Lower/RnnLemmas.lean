import Verif.Lower.RnnSpec
import Mathlib.Tactic.Ring
import Mathlib.Tactic.Linarith

/-!
Lemmas on the lowerings of the recurrent operations.
-/

namespace Verif.Lower

section
variable {R : Type*} [CommRing R]

/-- A memory after a store. -/
def upd (m : Mem R) (i : Idx) (v : R) : Mem R := ⟨m.shape, fun j => if j = i then v else m.data j⟩

theorem store_upd (m : Mem R) (i : Idx) (v : R) (h : InShape i m.shape) : m.store i v = some (upd m i v) := by
  unfold Mem.store
  rw [if_pos h]
  rfl

theorem load_in (m : Mem R) (i : Idx) (h : InShape i m.shape) : m.load i = some (m.data i) := by
  unfold Mem.load
  rw [if_pos h]

theorem upd_self (m : Mem R) (i : Idx) : upd m i (m.data i) = m := by
  unfold upd
  cases m with
  | mk s d =>
    simp only [Mem.mk.injEq, true_and]
    funext j
    by_cases h : j = i
    · subst h; simp
    · rw [if_neg h]

/-- Shapes of a state. -/
structure StOk (s : RState R) (S D N hs : ℤ) : Prop where
  H : s.H.shape = [N, hs]
  C : s.C.shape = [N, hs]
  Y : ∀ y, s.Y = some y → y.shape = [S, D, N, hs]

theorem storeY_ok (Y : Option (Mem R)) (idx : Idx) (v : R) (h : ∀ y, Y = some y → InShape idx y.shape) :
    storeY Y idx v = some (Y.map fun y => upd y idx v) := by
  unfold storeY
  match Y, h with
  | none, _ => rfl
  | some y, h =>
    simp only
    rw [store_upd _ _ _ (h y rfl)]
    rfl

/-- The state after the point `i`. -/
def pointState (s : RState R) (i : Idx) (t d : ℤ) (hv cv yv : R) : RState R :=
  ⟨upd s.H i hv, upd s.C i cv, s.Y.map fun y => upd y (t :: d :: i) yv⟩

theorem pointLoop (body : Idx → RState R → Option (RState R)) (S D N hs t d : ℤ) (hv cv yv : Idx → R) (s0 : RState R)
    (h0 : StOk s0 S D N hs)
    (hb : ∀ i s, InShape i [N, hs] → StOk s S D N hs → s.H.data i = s0.H.data i → s.C.data i = s0.C.data i →
      body i s = some (pointState s i t d (hv i) (cv i) (yv i))) :
    ∀ L : List Idx, L.Nodup → (∀ i ∈ L, InShape i [N, hs]) →
      ∃ s, L.foldlM (fun s i => body i s) s0 = some s ∧ StOk s S D N hs ∧ s.Y.isSome = s0.Y.isSome ∧
        (∀ j, s.H.data j = if j ∈ L then hv j else s0.H.data j) ∧
        (∀ j, s.C.data j = if j ∈ L then cv j else s0.C.data j) ∧
        (∀ y y0, s.Y = some y → s0.Y = some y0 → ∀ q, y.data q = if q.take 2 = [t, d] ∧ q.drop 2 ∈ L then yv (q.drop 2) else y0.data q) := by
  intro L
  induction L using List.reverseRecOn with
  | nil =>
    intro _ _
    refine ⟨s0, rfl, h0, rfl, fun j => by simp, fun j => by simp, ?_⟩
    intro y y0 h1 h2 q
    rw [h1] at h2
    cases h2
    simp
  | append_singleton L i ih =>
    intro hn hL
    rw [List.nodup_append] at hn
    obtain ⟨hn1, _, hn2⟩ := hn
    have hi : i ∉ L := fun h => hn2 i h i (by simp) rfl
    obtain ⟨s, e, ok, sm, hH, hC, hY⟩ := ih hn1 fun j hj => hL j (by simp [hj])
    have hin : InShape i [N, hs] := hL i (by simp)
    have e2 := hb i s hin ok (by rw [hH, if_neg hi]) (by rw [hC, if_neg hi])
    refine ⟨pointState s i t d (hv i) (cv i) (yv i), ?_, ?_, ?_, ?_, ?_, ?_⟩
    · rw [List.foldlM_append, e]
      simp only [Option.bind_eq_bind, Option.bind_some, List.foldlM_cons, List.foldlM_nil, e2]
      rfl
    · refine ⟨ok.H, ok.C, ?_⟩
      intro y hy
      simp only [pointState, Option.map_eq_some_iff] at hy
      obtain ⟨y', h1, h2⟩ := hy
      subst h2
      exact ok.Y y' h1
    · simp [pointState, sm]
    · intro j
      simp only [pointState, upd, List.mem_append, List.mem_singleton]
      by_cases h : j = i
      · subst h; simp
      · simp [h, hH]
    · intro j
      simp only [pointState, upd, List.mem_append, List.mem_singleton]
      by_cases h : j = i
      · subst h; simp
      · simp [h, hC]
    · intro y y0 hy hy0 q
      simp only [pointState, Option.map_eq_some_iff] at hy
      obtain ⟨y', h1, h2⟩ := hy
      subst h2
      have := hY y' y0 h1 hy0 q
      simp only [upd, List.mem_append, List.mem_singleton]
      by_cases h : q = t :: d :: i
      · subst h; simp
      · rw [if_neg h, this]
        have : ¬ (q.take 2 = [t, d] ∧ q.drop 2 = i) := by
          rintro ⟨a, b⟩
          exact h (by rw [← List.take_append_drop 2 q, a, b]; rfl)
        by_cases h3 : q.take 2 = [t, d]
        · have h4 : ¬ q.drop 2 = i := fun h => this ⟨h3, h⟩
          simp [h3, h4]
        · simp [h3]

/-- The vectors agree on the first `n` positions. -/
def Agree (n : ℤ) (a b : ℤ → R) : Prop := ∀ j, 0 ≤ j → j < n → a j = b j

/-- The rows of a state. -/
def rowCell (s : RState R) (b : ℤ) : Cell R := ⟨fun j => s.H.data [b, j], fun j => s.C.data [b, j]⟩

/-- One step of a lowering applies the equations to every element of the batch whose sequence is not over. -/
def StepOk (step : ℤ → Mem R → RState R → Option (RState R)) (S D N I hs d : ℤ) (cell : (ℤ → R) → Cell R → Cell R) (len : ℤ → ℤ)
    (pad : ℤ → ℤ → R) : Prop :=
  ∀ t Xt s, 0 ≤ t → t < S → Xt.shape = [N, I] → StOk s S D N hs →
    ∃ s', step t Xt s = some s' ∧ StOk s' S D N hs ∧ s'.Y.isSome = s.Y.isSome ∧
      (∀ b j, 0 ≤ b → b < N → 0 ≤ j → j < hs → s'.H.data [b, j] =
        if t < len b then (cell (fun k => Xt.data [b, k]) (rowCell s b)).h j else s.H.data [b, j]) ∧
      (∀ b j, 0 ≤ b → b < N → 0 ≤ j → j < hs → s'.C.data [b, j] =
        if t < len b then (cell (fun k => Xt.data [b, k]) (rowCell s b)).c j else s.C.data [b, j]) ∧
      (∀ y y0, s'.Y = some y → s.Y = some y0 →
        (∀ b j, 0 ≤ b → b < N → 0 ≤ j → j < hs → y.data [t, d, b, j] =
          if t < len b then (cell (fun k => Xt.data [b, k]) (rowCell s b)).h j else pad b j) ∧
        (∀ t' d' b j, (t' ≠ t ∨ d' ≠ d) → y.data [t', d', b, j] = y0.data [t', d', b, j]))

/-- The equations use the state and the input only within their sizes. -/
def CellOk (I hs : ℤ) (cell : (ℤ → R) → Cell R → Cell R) : Prop :=
  ∀ x x' s s', Agree I x x' → Agree hs s.h s'.h → Agree hs s.c s'.c →
    Agree hs (cell x s).h (cell x' s').h ∧ Agree hs (cell x s).c (cell x' s').c

theorem inShape2 {a b N M : ℤ} : InShape [a, b] [N, M] ↔ (0 ≤ a ∧ a < N) ∧ (0 ≤ b ∧ b < M) := by
  simp [inShape_cons, inShape_nil]

theorem inShape_two {i : Idx} {N M : ℤ} (h : InShape i [N, M]) : ∃ a b, i = [a, b] ∧ 0 ≤ a ∧ a < N ∧ 0 ≤ b ∧ b < M := by
  match i, h.length with
  | [a, b], _ => rw [inShape2] at h; exact ⟨a, b, rfl, h.1.1, h.1.2, h.2.1, h.2.2⟩

theorem xSlice_ok (X : Mem R) (S N I t : ℤ) (junk : Idx → R) (hX : X.shape = [S, N, I]) (h0 : 0 ≤ t) (h1 : t < S) :
    ∃ Xt, xSlice X t junk = some Xt ∧ Xt.shape = [N, I] ∧ ∀ b k, 0 ≤ b → b < N → 0 ≤ k → k < I → Xt.data [b, k] = X.data [t, b, k] := by
  obtain ⟨o, e, es, ev⟩ := fill_spec (⟨X.shape.tail, junk⟩ : Mem R) (fun i => X.load (t :: i)) (fun i => X.data (t :: i)) (by
    intro i hi
    refine load_in _ _ ?_
    rw [hX] at hi ⊢
    exact inShape_cons.2 ⟨⟨h0, h1⟩, hi⟩)
  refine ⟨o, e, by rw [es, hX]; rfl, ?_⟩
  intro b k a1 a2 a3 a4
  exact ev _ (by rw [hX]; exact inShape2.2 ⟨⟨a1, a2⟩, a3, a4⟩)

/-- How many steps of a sequence of length `len` are done after `n` iterations of `S`. -/
def doneSteps (rev : Bool) (S len : ℤ) (n : ℕ) : ℕ := if rev then ((n : ℤ) - (S - len)).toNat else min n len.toNat

theorem timeLoop_ok (rev : Bool) (X : Mem R) (junk : Idx → R) (step : ℤ → Mem R → RState R → Option (RState R))
    (S D N I hs d : ℤ) (cell : (ℤ → R) → Cell R → Cell R) (len : ℤ → ℤ) (pad : ℤ → ℤ → R) (s0 : RState R)
    (hX : X.shape = [S, N, I]) (hlen : ∀ b, 0 ≤ b → b < N → 0 ≤ len b ∧ len b ≤ S ∨ S < 0) (hst : StepOk step S D N I hs d cell len pad)
    (hce : CellOk I hs cell) (h0 : StOk s0 S D N hs) (ini : ℤ → Cell R)
    (hini : ∀ b, 0 ≤ b → b < N → Agree hs (rowCell s0 b).h (ini b).h ∧ Agree hs (rowCell s0 b).c (ini b).c) :
    ∀ n : ℕ, (n : ℤ) ≤ S →
    ∃ s, (upto n).foldlM (fun s iv =>
        let t := if rev then X.shape.headD 0 - iv - 1 else iv
        (xSlice X t junk).bind fun Xt => step t Xt s) s0 = some s ∧ StOk s S D N hs ∧ s.Y.isSome = s0.Y.isSome ∧
      (∀ b, 0 ≤ b → b < N →
        Agree hs (rowCell s b).h (stateAfter cell rev (fun t k => X.data [t, b, k]) (len b) (ini b) (doneSteps rev S (len b) n)).h ∧
        Agree hs (rowCell s b).c (stateAfter cell rev (fun t k => X.data [t, b, k]) (len b) (ini b) (doneSteps rev S (len b) n)).c) ∧
      (∀ y y0, s.Y = some y → s0.Y = some y0 →
        (∀ t b j, (if rev then S - n ≤ t ∧ t < S else 0 ≤ t ∧ t < n) → 0 ≤ b → b < N → 0 ≤ j → j < hs →
          y.data [t, d, b, j] = if t < len b then
            (stateAfter cell rev (fun t k => X.data [t, b, k]) (len b) (ini b) (if rev then (len b - t).toNat else (t + 1).toNat)).h j
            else pad b j) ∧
        (∀ t d' b j, d' ≠ d → y.data [t, d', b, j] = y0.data [t, d', b, j])) := by
  intro n
  induction n with
  | zero =>
    intro hS
    refine ⟨s0, by simp [upto], h0, rfl, ?_, ?_⟩
    · intro b hb1 hb2
      have : doneSteps rev S (len b) 0 = 0 := by
        unfold doneSteps
        have := hlen b hb1 hb2
        split
        · omega
        · omega
      rw [this]
      exact hini b hb1 hb2
    · intro y y0 h1 h2
      rw [h1] at h2
      cases h2
      refine ⟨?_, fun _ _ _ _ _ => rfl⟩
      intro t b j ht
      exfalso
      split at ht <;> simp at ht <;> omega
  | succ n ih =>
    intro hS
    obtain ⟨s, e, ok, sm, hst', hY⟩ := ih (by omega)
    have hSh : X.shape.headD 0 = S := by rw [hX]; rfl
    generalize ht : (if rev then X.shape.headD 0 - (n : ℤ) - 1 else (n : ℤ)) = t at *
    rw [hSh] at ht
    have ht0 : 0 ≤ t ∧ t < S := by rw [← ht]; split <;> omega
    obtain ⟨Xt, e1, e2, e3⟩ := xSlice_ok X S N I t junk hX ht0.1 ht0.2
    obtain ⟨s', f1, f2, f3, f4, f5, f6⟩ := hst t Xt s ht0.1 ht0.2 e2 ok
    -- one step of the equations
    have hcell : ∀ b, 0 ≤ b → b < N → t < len b →
        doneSteps rev S (len b) (n + 1) = doneSteps rev S (len b) n + 1 ∧
        (if rev then (len b - t).toNat else (t + 1).toNat) = doneSteps rev S (len b) n + 1 ∧
        Agree hs (cell (fun k => Xt.data [b, k]) (rowCell s b)).h
          (stateAfter cell rev (fun t k => X.data [t, b, k]) (len b) (ini b) (doneSteps rev S (len b) n + 1)).h ∧
        Agree hs (cell (fun k => Xt.data [b, k]) (rowCell s b)).c
          (stateAfter cell rev (fun t k => X.data [t, b, k]) (len b) (ini b) (doneSteps rev S (len b) n + 1)).c := by
      intro b hb1 hb2 hlt
      have hl := hlen b hb1 hb2
      refine ⟨?_, ?_, ?_⟩
      · unfold doneSteps
        rw [← ht] at hlt
        cases rev <;> simp at hlt ⊢ <;> omega
      · unfold doneSteps
        rw [← ht] at hlt ⊢
        cases rev <;> simp at hlt ⊢ <;> omega
      · have htt : (if rev then len b - 1 - (doneSteps rev S (len b) n : ℤ) else (doneSteps rev S (len b) n : ℤ)) = t := by
          unfold doneSteps
          rw [← ht] at hlt ⊢
          cases rev <;> simp at hlt ⊢ <;> omega
        rw [stateAfter, htt]
        exact hce _ _ _ _ (fun k a1 a2 => e3 b k hb1 hb2 a1 a2) (hst' b hb1 hb2).1 (hst' b hb1 hb2).2
    have hstay : ∀ b, 0 ≤ b → b < N → ¬ t < len b → doneSteps rev S (len b) (n + 1) = doneSteps rev S (len b) n := by
      intro b hb1 hb2 hlt
      have hl := hlen b hb1 hb2
      unfold doneSteps
      rw [← ht] at hlt
      cases rev <;> simp at hlt ⊢ <;> omega
    refine ⟨s', ?_, f2, by rw [f3, sm], ?_, ?_⟩
    · rw [show ((n + 1 : ℕ) : ℤ) = (n : ℤ) + 1 by push_cast; rfl, upto_succ, List.foldlM_append, e]
      simp only [Option.bind_eq_bind, Option.bind_some, List.foldlM_cons, List.foldlM_nil]
      rw [hSh, ht, e1]
      simp only [Option.bind_some]
      rw [f1]
      rfl
    · intro b hb1 hb2
      by_cases hlt : t < len b
      · obtain ⟨g1, _, g3, g4⟩ := hcell b hb1 hb2 hlt
        rw [g1]
        refine ⟨fun j a1 a2 => ?_, fun j a1 a2 => ?_⟩
        · simp only [rowCell]
          rw [f4 b j hb1 hb2 a1 a2, if_pos hlt]
          exact g3 j a1 a2
        · simp only [rowCell]
          rw [f5 b j hb1 hb2 a1 a2, if_pos hlt]
          exact g4 j a1 a2
      · rw [hstay b hb1 hb2 hlt]
        refine ⟨fun j a1 a2 => ?_, fun j a1 a2 => ?_⟩
        · simp only [rowCell]
          rw [f4 b j hb1 hb2 a1 a2, if_neg hlt]
          exact (hst' b hb1 hb2).1 j a1 a2
        · simp only [rowCell]
          rw [f5 b j hb1 hb2 a1 a2, if_neg hlt]
          exact (hst' b hb1 hb2).2 j a1 a2
    · intro y y0 hy hy0
      obtain ⟨ym, hym⟩ : ∃ ym, s.Y = some ym := by
        rw [← Option.isSome_iff_exists, sm, hy0]; rfl
      obtain ⟨k1, k2⟩ := f6 y ym hy hym
      obtain ⟨l1, l2⟩ := hY ym y0 hym hy0
      refine ⟨?_, ?_⟩
      · intro t' b j ht' hb1 hb2 a1 a2
        by_cases htt : t' = t
        · subst htt
          rw [k1 b j hb1 hb2 a1 a2]
          by_cases hlt : t' < len b
          · obtain ⟨_, g2, g3, _⟩ := hcell b hb1 hb2 hlt
            rw [if_pos hlt, if_pos hlt, g2]
            exact g3 j a1 a2
          · rw [if_neg hlt, if_neg hlt]
        · rw [k2 t' d b j (Or.inl htt)]
          refine l1 t' b j ?_ hb1 hb2 a1 a2
          rw [← ht] at htt
          cases rev <;> simp at ht' htt ⊢ <;> omega
      · intro t' d' b j hd
        rw [k2 t' d' b j (Or.inr hd), l2 t' d' b j hd]

end

end Verif.Lower
