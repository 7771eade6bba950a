import Verif.Lower.RnnLemmas

/-!
The common part of the lowerings of the recurrent operations.
-/

namespace Verif.Lower

section
variable {R : Type*} [CommRing R]

/-- The shape of an optional initial state. -/
def InitOk (init : Option (Mem R)) (D N hs : ℤ) : Prop := ∀ m, init = some m → m.shape = [D, N, hs]

theorem initVal_ok (init : Option (Mem R)) (D N hs d : ℤ) (h : InitOk init D N hs) (h0 : 0 ≤ d) (h1 : d < D) (b j : ℤ)
    (hi : InShape [b, j] [N, hs]) : initVal init d [b, j] = some (initAt init d b j) := by
  unfold initVal initAt
  match init, h with
  | none, _ => rfl
  | some m, h =>
    simp only
    refine load_in _ _ ?_
    rw [h m rfl]
    exact inShape_cons.2 ⟨⟨h0, h1⟩, hi⟩

theorem initFill_ok (init : Option (Mem R)) (D N hs d : ℤ) (junk : Idx → R) (h : InitOk init D N hs) (h0 : 0 ≤ d) (h1 : d < D) :
    ∃ m, fill ⟨[N, hs], junk⟩ (initVal init d) = some m ∧ m.shape = [N, hs] ∧
      ∀ b, 0 ≤ b → b < N → Agree hs (fun j => m.data [b, j]) (initAt init d b) := by
  obtain ⟨o, e, es, ev⟩ := fill_spec (⟨[N, hs], junk⟩ : Mem R) (initVal init d) (fun i => initAt init d (i.getD 0 0) (i.getD 1 0)) (by
    intro i hi
    obtain ⟨a, b, rfl, _⟩ := inShape_two hi
    exact initVal_ok init D N hs d h h0 h1 a b hi)
  refine ⟨o, e, es, ?_⟩
  intro b hb1 hb2 j hj1 hj2
  exact ev [b, j] (inShape2.2 ⟨⟨hb1, hb2⟩, hj1, hj2⟩)

theorem copyOut_ok (m : Mem R) (N hs : ℤ) (junk : Idx → R) (hm : m.shape = [N, hs]) :
    ∃ o, fill (⟨1 :: m.shape, junk⟩ : Mem R) (fun i => m.load i.tail) = some o ∧ o.shape = [1, N, hs] ∧
      ∀ b j, 0 ≤ b → b < N → 0 ≤ j → j < hs → o.data [0, b, j] = m.data [b, j] := by
  obtain ⟨o, e, es, ev⟩ := fill_spec (⟨1 :: m.shape, junk⟩ : Mem R) (fun i => m.load i.tail) (fun i => m.data i.tail) (by
    intro i hi
    match i, hi with
    | x :: xs, hi => exact load_in _ _ (inShape_cons.1 hi).2)
  refine ⟨o, e, by rw [es, hm], ?_⟩
  intro b j h1 h2 h3 h4
  exact ev [0, b, j] (by rw [hm]; exact inShape_cons.2 ⟨by omega, inShape2.2 ⟨⟨h1, h2⟩, h3, h4⟩⟩)

theorem biOut_ok (f r : Mem R) (N hs : ℤ) (junk : Idx → R) (hf : f.shape = [N, hs]) (hr : r.shape = [N, hs]) :
    ∃ o, stateOut .bidirectional f r junk = some o ∧ o.shape = [2, N, hs] ∧
      ∀ b j, 0 ≤ b → b < N → 0 ≤ j → j < hs → o.data [0, b, j] = f.data [b, j] ∧ o.data [1, b, j] = r.data [b, j] := by
  have key : ∀ L : List Idx, (∀ i ∈ L, InShape i [N, hs]) →
      ∃ o, L.foldlM (fun (o : Mem R) i => (f.load i).bind fun v => (o.store (0 :: i) v).bind fun o =>
        (r.load i).bind fun v => o.store (1 :: i) v) ⟨2 :: f.shape, junk⟩ = some o ∧ o.shape = [2, N, hs] ∧
        ∀ i ∈ L, o.data (0 :: i) = f.data i ∧ o.data (1 :: i) = r.data i := by
    intro L
    induction L using List.reverseRecOn with
    | nil => exact fun _ => ⟨_, rfl, by rw [hf], by simp⟩
    | append_singleton L i ih =>
      intro hL
      obtain ⟨o, e, es, ev⟩ := ih fun j hj => hL j (by simp [hj])
      have hi := hL i (by simp)
      refine ⟨upd (upd o (0 :: i) (f.data i)) (1 :: i) (r.data i), ?_, es, ?_⟩
      · rw [List.foldlM_append, e]
        simp only [Option.bind_eq_bind, Option.bind_some, List.foldlM_cons, List.foldlM_nil]
        rw [load_in f i (by rw [hf]; exact hi)]
        simp only [Option.bind_some]
        rw [store_upd _ _ _ (by rw [es]; exact inShape_cons.2 ⟨by omega, hi⟩)]
        simp only [Option.bind_some]
        rw [load_in r i (by rw [hr]; exact hi)]
        simp only [Option.bind_some]
        rw [store_upd _ _ _ (by simp only [upd]; rw [es]; exact inShape_cons.2 ⟨by omega, hi⟩)]
        rfl
      · intro j hj
        simp only [upd, List.cons.injEq, true_and]
        by_cases h : j = i
        · subst h; simp
        · have hjL : j ∈ L := by
            simp only [List.mem_append, List.mem_singleton] at hj
            tauto
          simp [h, ev j hjL]
  obtain ⟨o, e, es, ev⟩ := key (idxs f.shape) fun i hi => by rw [← hf]; exact mem_idxs.1 hi
  refine ⟨o, e, es, ?_⟩
  intro b j h1 h2 h3 h4
  exact ev [b, j] (mem_idxs.2 (by rw [hf]; exact inShape2.2 ⟨⟨h1, h2⟩, h3, h4⟩))

/-- One pass. -/
theorem pass_ok (rev : Bool) (X : Mem R) (junk : Idx → R) (step : ℤ → Mem R → RState R → Option (RState R))
    (S D N I hs d : ℤ) (cell : (ℤ → R) → Cell R → Cell R) (len : ℤ → ℤ) (initH initC : Option (Mem R))
    (hX : X.shape = [S, N, I]) (hS : 0 ≤ S) (hlen : ∀ b, 0 ≤ b → b < N → 0 ≤ len b ∧ len b ≤ S)
    (hst : StepOk step S D N I hs d cell len (initAt initH d))
    (hce : CellOk I hs cell) (s0 : RState R) (h0 : StOk s0 S D N hs)
    (hH : ∀ b, 0 ≤ b → b < N → Agree hs (fun j => s0.H.data [b, j]) (initAt initH d b))
    (hC : ∀ b, 0 ≤ b → b < N → Agree hs (fun j => s0.C.data [b, j]) (initAt initC d b)) :
    ∃ s, timeLoop rev X junk step s0 = some s ∧ StOk s S D N hs ∧ s.Y.isSome = s0.Y.isSome ∧
      (∀ b, 0 ≤ b → b < N →
        Agree hs (fun j => s.H.data [b, j]) (stateAfter cell rev (fun t k => X.data [t, b, k]) (len b)
          ⟨initAt initH d b, initAt initC d b⟩ (len b).toNat).h ∧
        Agree hs (fun j => s.C.data [b, j]) (stateAfter cell rev (fun t k => X.data [t, b, k]) (len b)
          ⟨initAt initH d b, initAt initC d b⟩ (len b).toNat).c) ∧
      (∀ y y0, s.Y = some y → s0.Y = some y0 →
        (∀ t b j, 0 ≤ t → t < S → 0 ≤ b → b < N → 0 ≤ j → j < hs →
          y.data [t, d, b, j] = if t < len b then
            (stateAfter cell rev (fun t k => X.data [t, b, k]) (len b) ⟨initAt initH d b, initAt initC d b⟩
              (if rev then (len b - t).toNat else (t + 1).toNat)).h j
            else initAt initH d b j) ∧
        (∀ t d' b j, d' ≠ d → y.data [t, d', b, j] = y0.data [t, d', b, j])) := by
  obtain ⟨s, e, ok, sm, h1, h2⟩ := timeLoop_ok rev X junk step S D N I hs d cell len (initAt initH d) s0 hX
    (fun b hb1 hb2 => Or.inl (hlen b hb1 hb2)) hst hce h0 (fun b => ⟨initAt initH d b, initAt initC d b⟩)
    (fun b hb1 hb2 => ⟨hH b hb1 hb2, hC b hb1 hb2⟩) S.toNat (by omega)
  refine ⟨s, ?_, ok, sm, ?_, ?_⟩
  · unfold timeLoop
    rw [show X.shape.headD 0 = ((S.toNat : ℕ) : ℤ) by rw [hX, Int.toNat_of_nonneg hS]; rfl]
    rw [show X.shape.headD 0 = ((S.toNat : ℕ) : ℤ) by rw [hX, Int.toNat_of_nonneg hS]; rfl] at e
    exact e
  · intro b hb1 hb2
    have := hlen b hb1 hb2
    have hd : doneSteps rev S (len b) S.toNat = (len b).toNat := by
      unfold doneSteps
      split <;> omega
    have := h1 b hb1 hb2
    rw [hd] at this
    exact this
  · intro y y0 hy hy0
    obtain ⟨k1, k2⟩ := h2 y y0 hy hy0
    refine ⟨fun t b j a1 a2 a3 a4 a5 a6 => k1 t b j ?_ a3 a4 a5 a6, k2⟩
    split <;> omega

theorem rnnLower_ok (dir : RDir) (X : Mem R) (initH initC : Option (Mem R)) (hasY : Bool) (junk : Idx → R)
    (step : Bool → ℤ → ℤ → Mem R → RState R → Option (RState R)) (S N I hs : ℤ)
    (cell : ℕ → (ℤ → R) → Cell R → Cell R) (len : ℤ → ℤ)
    (hX : X.shape = [S, N, I]) (hS : 0 ≤ S) (hlen : ∀ b, 0 ≤ b → b < N → 0 ≤ len b ∧ len b ≤ S)
    (hH : InitOk initH (passes dir).length N hs) (hC : InitOk initC (passes dir).length N hs)
    (hst : ∀ (d : ℕ) (rev : Bool), (passes dir)[d]? = some rev →
      StepOk (step (!rev) d) S (passes dir).length N I hs d (cell d) len (initAt initH d))
    (hce : ∀ d, CellOk I hs (cell d)) :
    ∃ o, rnnLower dir X hs initH initC hasY junk step = some o ∧ RnnResult o dir X S N hs initH initC hasY cell len := by
  have hN : X.shape.getD 1 0 = N := by rw [hX]; rfl
  have hS0 : X.shape.headD 0 = S := by rw [hX]; rfl
  unfold rnnLower
  simp only [hN, hS0]
  match dir, hH, hC, hst with
  | .forward, hH, hC, hst =>
    simp only [passes, List.length_singleton, Nat.cast_one] at hH hC hst
    obtain ⟨mh, a1, a2, a3⟩ := initFill_ok initH 1 N hs 0 junk hH (by omega) (by omega)
    obtain ⟨mc, b1, b2, b3⟩ := initFill_ok initC 1 N hs 0 junk hC (by omega) (by omega)
    have h1 := hst 0 false rfl
    simp only [Bool.not_false, Nat.cast_zero] at h1
    obtain ⟨s, e, ok, sm, v1, v2⟩ := pass_ok false X junk (step true 0) S 1 N I hs 0 (cell 0) len initH initC hX hS hlen h1 (hce 0)
      ⟨mh, mc, if hasY then some ⟨[S, if RDir.forward = .bidirectional then 2 else 1, N, hs], junk⟩ else none⟩
      ⟨a2, b2, by intro y hy; split at hy <;> simp at hy; subst hy; rfl⟩ a3 b3
    obtain ⟨oh, c1, c2, c3⟩ := copyOut_ok s.H N hs junk ok.H
    obtain ⟨oc, d1, d2, d3⟩ := copyOut_ok s.C N hs junk ok.C
    refine ⟨⟨s.Y, oh, oc⟩, ?_, ?_⟩
    · simp only [a1, b1, Option.bind_some, Option.map_some]
      rw [e]
      simp only [Option.bind_some, stateOut]
      rw [c1, d1]
      rfl
    · refine ⟨?_, ?_, c2, d2, ?_, ?_, ?_⟩
      · simp only [sm]
        cases hasY <;> rfl
      · exact ok.Y
      · intro y hy d rev hd t b j
        simp only [passes] at hd
        rcases d with _ | d
        · simp at hd
          subst hd
          simp only at hy
          obtain ⟨y0, hy0⟩ : ∃ y0, (if hasY then some (⟨[S, if RDir.forward = .bidirectional then 2 else 1, N, hs], junk⟩ : Mem R) else none) = some y0 := by
            rw [← Option.isSome_iff_exists, ← sm, hy]; rfl
          exact (v2 y y0 hy hy0).1 t b j
        · simp at hd
      · intro d rev hd b j h1 h2 h3 h4
        simp only [passes] at hd
        rcases d with _ | d
        · simp at hd
          subst hd
          exact (c3 b j h1 h2 h3 h4).trans ((v1 b h1 h2).1 j h3 h4)
        · simp at hd
      · intro d rev hd b j h1 h2 h3 h4
        simp only [passes] at hd
        rcases d with _ | d
        · simp at hd
          subst hd
          exact (d3 b j h1 h2 h3 h4).trans ((v1 b h1 h2).2 j h3 h4)
        · simp at hd
  | .reverse, hH, hC, hst =>
    simp only [passes, List.length_singleton, Nat.cast_one] at hH hC hst
    obtain ⟨mh, a1, a2, a3⟩ := initFill_ok initH 1 N hs 0 junk hH (by omega) (by omega)
    obtain ⟨mc, b1, b2, b3⟩ := initFill_ok initC 1 N hs 0 junk hC (by omega) (by omega)
    have h1 := hst 0 true rfl
    simp only [Bool.not_true, Nat.cast_zero] at h1
    obtain ⟨s, e, ok, sm, v1, v2⟩ := pass_ok true X junk (step false 0) S 1 N I hs 0 (cell 0) len initH initC hX hS hlen h1 (hce 0)
      ⟨mh, mc, if hasY then some ⟨[S, if RDir.reverse = .bidirectional then 2 else 1, N, hs], junk⟩ else none⟩
      ⟨a2, b2, by intro y hy; split at hy <;> simp at hy; subst hy; rfl⟩ a3 b3
    obtain ⟨oh, c1, c2, c3⟩ := copyOut_ok s.H N hs junk ok.H
    obtain ⟨oc, d1, d2, d3⟩ := copyOut_ok s.C N hs junk ok.C
    refine ⟨⟨s.Y, oh, oc⟩, ?_, ?_⟩
    · rw [show ((if RDir.reverse = .bidirectional then 1 else 0 : ℤ)) = 0 from rfl]
      rw [a1]
      simp only [Option.bind_some]
      rw [b1]
      simp only [Option.bind_some, Option.map_some]
      rw [e]
      simp only [Option.bind_some, stateOut]
      rw [c1, d1]
      rfl
    · refine ⟨?_, ?_, c2, d2, ?_, ?_, ?_⟩
      · simp only [sm]
        cases hasY <;> rfl
      · exact ok.Y
      · intro y hy d rev hd t b j
        simp only [passes] at hd
        rcases d with _ | d
        · simp at hd
          subst hd
          simp only at hy
          obtain ⟨y0, hy0⟩ : ∃ y0, (if hasY then some (⟨[S, if RDir.reverse = .bidirectional then 2 else 1, N, hs], junk⟩ : Mem R) else none) = some y0 := by
            rw [← Option.isSome_iff_exists, ← sm, hy]; rfl
          exact (v2 y y0 hy hy0).1 t b j
        · simp at hd
      · intro d rev hd b j h1 h2 h3 h4
        simp only [passes] at hd
        rcases d with _ | d
        · simp at hd
          subst hd
          exact (c3 b j h1 h2 h3 h4).trans ((v1 b h1 h2).1 j h3 h4)
        · simp at hd
      · intro d rev hd b j h1 h2 h3 h4
        simp only [passes] at hd
        rcases d with _ | d
        · simp at hd
          subst hd
          exact (d3 b j h1 h2 h3 h4).trans ((v1 b h1 h2).2 j h3 h4)
        · simp at hd
  | .bidirectional, hH, hC, hst =>
    simp only [passes, List.length_cons, List.length_nil] at hH hC hst
    norm_num at hH hC
    obtain ⟨mh, a1, a2, a3⟩ := initFill_ok initH 2 N hs 0 junk hH (by omega) (by omega)
    obtain ⟨mc, b1, b2, b3⟩ := initFill_ok initC 2 N hs 0 junk hC (by omega) (by omega)
    obtain ⟨mh', a1', a2', a3'⟩ := initFill_ok initH 2 N hs 1 junk hH (by omega) (by omega)
    obtain ⟨mc', b1', b2', b3'⟩ := initFill_ok initC 2 N hs 1 junk hC (by omega) (by omega)
    have h1 := hst 0 false rfl
    simp only [Bool.not_false, Nat.cast_zero] at h1
    norm_num at h1
    have h1' := hst 1 true rfl
    simp only [Bool.not_true, Nat.cast_one] at h1'
    norm_num at h1'
    obtain ⟨s, e, ok, sm, v1, v2⟩ := pass_ok false X junk (step true 0) S 2 N I hs 0 (cell 0) len initH initC hX hS hlen h1 (hce 0)
      ⟨mh, mc, if hasY then some ⟨[S, if RDir.bidirectional = .bidirectional then 2 else 1, N, hs], junk⟩ else none⟩
      ⟨a2, b2, by intro y hy; split at hy <;> simp at hy; subst hy; rfl⟩ a3 b3
    obtain ⟨s', e', ok', sm', v1', v2'⟩ := pass_ok true X junk (step false 1) S 2 N I hs 1 (cell 1) len initH initC hX hS hlen h1' (hce 1)
      ⟨mh', mc', s.Y⟩ ⟨a2', b2', ok.Y⟩ a3' b3'
    obtain ⟨oh, c1, c2, c3⟩ := biOut_ok s.H s'.H N hs junk ok.H ok'.H
    obtain ⟨oc, d1, d2, d3⟩ := biOut_ok s.C s'.C N hs junk ok.C ok'.C
    refine ⟨⟨s'.Y, oh, oc⟩, ?_, ?_⟩
    · simp only [if_true] at e ⊢
      simp only [a1, b1, a1', b1', Option.bind_some, Option.map_some]
      rw [e]
      simp only [Option.bind_some]
      rw [e']
      simp only [Option.bind_some]
      rw [c1, d1]
      rfl
    · refine ⟨?_, ?_, c2, d2, ?_, ?_, ?_⟩
      · simp only [sm', sm]
        cases hasY <;> rfl
      · exact ok'.Y
      · intro y hy d rev hd t b j q1 q2 q3 q4 q5 q6
        simp only [passes] at hd
        simp only at hy
        obtain ⟨y1, hy1⟩ : ∃ y1, s.Y = some y1 := by
          rw [← Option.isSome_iff_exists]
          have := sm'
          simp only at this
          rw [← this, hy]; rfl
        obtain ⟨y0, hy0⟩ : ∃ y0, (if hasY then some (⟨[S, if RDir.bidirectional = .bidirectional then 2 else 1, N, hs], junk⟩ : Mem R) else none) = some y0 := by
          rw [← Option.isSome_iff_exists, ← sm, hy1]; rfl
        rcases d with _ | _ | d
        · simp at hd
          subst hd
          have := (v2' y y1 hy hy1).2 t 0 b j (by omega)
          simp only [Nat.cast_zero]
          rw [this]
          exact (v2 y1 y0 hy1 hy0).1 t b j q1 q2 q3 q4 q5 q6
        · simp at hd
          subst hd
          exact (v2' y y1 hy hy1).1 t b j q1 q2 q3 q4 q5 q6
        · simp at hd
      · intro d rev hd b j h1 h2 h3 h4
        simp only [passes] at hd
        rcases d with _ | _ | d
        · simp at hd
          subst hd
          exact (c3 b j h1 h2 h3 h4).1.trans ((v1 b h1 h2).1 j h3 h4)
        · simp at hd
          subst hd
          exact (c3 b j h1 h2 h3 h4).2.trans ((v1' b h1 h2).1 j h3 h4)
        · simp at hd
      · intro d rev hd b j h1 h2 h3 h4
        simp only [passes] at hd
        rcases d with _ | _ | d
        · simp at hd
          subst hd
          exact (d3 b j h1 h2 h3 h4).1.trans ((v1 b h1 h2).2 j h3 h4)
        · simp at hd
          subst hd
          exact (d3 b j h1 h2 h3 h4).2.trans ((v1' b h1 h2).2 j h3 h4)
        · simp at hd

end

end Verif.Lower
