import Verif.ConstProp.ArithModel
import Verif.Rewrite.BroadcastAssoc
import Verif.Rewrite.GemmLemmas

/-! # Rearranging arithmetic with constants keeps its value -/

namespace Verif.ConstProp

open Verif.Rewrite

variable {V : Type} [Inhabited V] [DecidableEq V]

/-- An operation on two results that may be missing. -/
def ob (f : V → V → V) (p q : Option (Tensor V)) : Option (Tensor V) :=
  p.bind fun s => q.bind fun t => binary f s t

omit [DecidableEq V] in
theorem ob_comm {f : V → V → V} (hf : ∀ x y, f x y = f y x) (p q : Option (Tensor V)) : ob f p q = ob f q p := by
  unfold ob
  cases p <;> cases q <;> simp [binary_comm hf]

omit [DecidableEq V] in
theorem ob_assoc {f : V → V → V} (hf : ∀ x y z, f (f x y) z = f x (f y z)) (p q r : Option (Tensor V)) :
    ob f (ob f p q) r = ob f p (ob f q r) := by
  unfold ob
  cases p with
  | none => simp
  | some a =>
    cases q with
    | none => simp
    | some b =>
      cases r with
      | none => simp
      | some c => simpa using binary_assoc hf a b c

omit [DecidableEq V] in
theorem asBin_some {b : Bin} {e x y : CE V} (h : asBin b e = some (x, y)) : e = .bin b x y := by
  cases e with
  | bin b' x' y' =>
    have e : asBin b (.bin b' x' y' : CE V) = if b' = b then some (x', y') else none := rfl
    rw [e] at h
    by_cases hb : b' = b
    · rw [if_pos hb] at h
      cases h
      rw [hb]
    · rw [if_neg hb] at h
      cases h
  | _ => cases h

omit [DecidableEq V] in
theorem asMM_some {e x y : CE V} (h : asMM e = some (x, y)) : e = .mm x y := by
  cases e with
  | mm x' y' => cases h; rfl
  | _ => cases h

omit [DecidableEq V] in
theorem dense_some {e : CE V} {t : Tensor V} (h : dense? e = some t) : e = .cst true t := by
  cases e with
  | cst d t' =>
    cases d with
    | true => cases h; rfl
    | false => cases h
  | _ => cases h

/-! ### What the patterns do -/

omit [DecidableEq V] in
theorem constCommutative_some {b : Bin} {e e' : CE V} (h : constCommutative b e = some e') :
    ∃ c x, e = .bin b c x ∧ isConst c = true ∧ isConst x = false ∧ e' = .bin b x c := by
  unfold constCommutative at h
  simp only [Option.bind_eq_some_iff] at h
  obtain ⟨⟨c, x⟩, h1, h2⟩ := h
  dsimp only at h2
  split at h2
  · rename_i h3
    simp only [Bool.and_eq_true, Bool.not_eq_true'] at h3
    cases h2
    exact ⟨c, x, asBin_some h1, h3.1, h3.2, rfl⟩
  · cases h2

omit [DecidableEq V] in
theorem constAssociative1_some {I : CInfo V} {b : Bin} {e e' : CE V} (h : constAssociative1 I b e = some e') :
    ∃ x c1 c2, e = .bin b (.bin b x c1) c2 ∧ isConst x = false ∧ isConst c1 = true ∧ isConst c2 = true ∧
      e' = .bin b x (.bin b c1 c2) := by
  unfold constAssociative1 at h
  simp only [Option.bind_eq_some_iff] at h
  obtain ⟨⟨l, c2⟩, h1, ⟨x, c1⟩, h2, h3⟩ := h
  dsimp only at h2 h3
  split at h3
  · rename_i h4
    simp only [Bool.and_eq_true, Bool.not_eq_true'] at h4
    cases h3
    rw [asBin_some h1, asBin_some h2]
    exact ⟨x, c1, c2, rfl, h4.1.2, h4.1.1.1, h4.1.1.2, rfl⟩
  · cases h3

omit [DecidableEq V] in
theorem constAssociative2_some {I : CInfo V} {b : Bin} {e e' : CE V} (h : constAssociative2 I b e = some e') :
    ∃ x c y, e = .bin b (.bin b x c) y ∧ isConst x = false ∧ isConst c = true ∧ isConst y = false ∧
      e' = .bin b (.bin b x y) c := by
  unfold constAssociative2 at h
  simp only [Option.bind_eq_some_iff] at h
  obtain ⟨⟨l, y⟩, h1, ⟨x, c⟩, h2, h3⟩ := h
  dsimp only at h2 h3
  split at h3
  · rename_i h4
    simp only [Bool.and_eq_true, Bool.not_eq_true'] at h4
    cases h3
    rw [asBin_some h1, asBin_some h2]
    exact ⟨x, c, y, rfl, h4.1.1.1.1.2, h4.1.1.1.1.1, h4.1.1.1.2, rfl⟩
  · cases h3

omit [DecidableEq V] in
theorem constAssociative3_some {I : CInfo V} {b : Bin} {e e' : CE V} (h : constAssociative3 I b e = some e') :
    ∃ x y c, e = .bin b x (.bin b y c) ∧ isConst x = false ∧ isConst y = false ∧ isConst c = true ∧
      e' = .bin b (.bin b x y) c := by
  unfold constAssociative3 at h
  simp only [Option.bind_eq_some_iff] at h
  obtain ⟨⟨x, r⟩, h1, ⟨y, c⟩, h2, h3⟩ := h
  dsimp only at h2 h3
  split at h3
  · rename_i h4
    simp only [Bool.and_eq_true, Bool.not_eq_true'] at h4
    cases h3
    rw [asBin_some h1, asBin_some h2]
    exact ⟨x, y, c, rfl, h4.1.1.1.1.2, h4.1.1.1.2, h4.1.1.1.1.1, rfl⟩
  · cases h3

omit [DecidableEq V] in
theorem constAssociative4_some {I : CInfo V} {b : Bin} {e e' : CE V} (h : constAssociative4 I b e = some e') :
    ∃ x c1 y c2, e = .bin b (.bin b x c1) (.bin b y c2) ∧ isConst x = false ∧ isConst c1 = true ∧
      isConst y = false ∧ isConst c2 = true ∧ e' = .bin b (.bin b x y) (.bin b c1 c2) := by
  unfold constAssociative4 at h
  simp only [Option.bind_eq_some_iff] at h
  obtain ⟨⟨l, r⟩, h1, ⟨x, c1⟩, h2, ⟨y, c2⟩, h3, h4⟩ := h
  dsimp only at h2 h3 h4
  split at h4
  · rename_i h5
    simp only [Bool.and_eq_true, Bool.not_eq_true'] at h5
    cases h4
    rw [asBin_some h1, asBin_some h2, asBin_some h3]
    exact ⟨x, c1, y, c2, rfl, h5.1.1.1.2, h5.1.1.1.1.1, h5.1.1.2, h5.1.1.1.1.2, rfl⟩
  · cases h4

omit [DecidableEq V] in
theorem constProp_some {A : Alg V} {I : CInfo V} {b : Bin} {e e' : CE V} (h : constProp A I b e = some e') :
    ∃ s t u, e = .bin b (.cst true s) (.cst true t) ∧ binary (A.bin b) s t = some u ∧ e' = .cst true u := by
  unfold constProp at h
  simp only [Option.bind_eq_some_iff] at h
  obtain ⟨⟨x, y⟩, h1, s, h2, t, h3, h4⟩ := h
  dsimp only at h2 h3 h4
  split at h4
  · simp only [Option.map_eq_some_iff] at h4
    obtain ⟨u, h5, h6⟩ := h4
    rw [asBin_some h1, dense_some h2, dense_some h3]
    exact ⟨s, t, u, rfl, h5, h6.symm⟩
  · cases h4

theorem neutralOnRhs_some {I : CInfo V} {b : Bin} {v : V} {e e' : CE V} (h : neutralOnRhs I b v e = some e') :
    ∃ t, e = .bin b e' (.cst true t) ∧ isConst e' = false ∧ I.ty e = I.ty e' ∧ ∀ w ∈ t.data, w = v := by
  unfold neutralOnRhs at h
  simp only [Option.bind_eq_some_iff] at h
  obtain ⟨⟨x, c⟩, h1, t, h2, h3⟩ := h
  dsimp only at h2 h3
  split at h3
  · rename_i h4
    simp only [Bool.and_eq_true, Bool.not_eq_true', decide_eq_true_eq, allAre, List.all_eq_true] at h4
    cases h3
    rw [asBin_some h1, dense_some h2] at h4 ⊢
    exact ⟨t, rfl, h4.1.1, h4.1.2, h4.2⟩
  · cases h3

omit [DecidableEq V] in
theorem subConstToNeg_some {A : Alg V} {e e' : CE V} (h : subConstToNeg A e = some e') :
    ∃ x t, e = .bin .sub x (.cst true t) ∧ isConst x = false ∧
      e' = .bin .add x (.cst true (t.map (A.un "Neg" []))) := by
  unfold subConstToNeg at h
  simp only [Option.bind_eq_some_iff] at h
  obtain ⟨⟨x, c⟩, h1, t, h2, h3⟩ := h
  dsimp only at h2 h3
  split at h3
  · rename_i h4
    cases h3
    rw [asBin_some h1, dense_some h2]
    exact ⟨x, t, rfl, by simpa using h4, rfl⟩
  · cases h3

theorem matMulZerosOnLhs_some {A : Alg V} {I : CInfo V} {e e' : CE V} (h : matMulZerosOnLhs A I e = some e') :
    ∃ t y s, e = .mm (.cst true t) y ∧ staticShape (I.ty e) = some s ∧ I.intType e = true ∧
      (∀ w ∈ t.data, w = A.ofInt 0) ∧ e' = constZeroTensor A s := by
  unfold matMulZerosOnLhs at h
  simp only [Option.bind_eq_some_iff] at h
  obtain ⟨⟨x, y⟩, h1, t, h2, s, h3, h4⟩ := h
  dsimp only at h2 h3 h4
  split at h4
  · rename_i h5
    simp only [Bool.and_eq_true, Bool.not_eq_true', allAre, List.all_eq_true, decide_eq_true_eq] at h5
    cases h4
    exact ⟨t, y, s, by rw [asMM_some h1, dense_some h2], h3, h5.1.2, h5.2, rfl⟩
  · cases h4

theorem matMulZerosOnRhs_some {A : Alg V} {I : CInfo V} {e e' : CE V} (h : matMulZerosOnRhs A I e = some e') :
    ∃ x t s, e = .mm x (.cst true t) ∧ staticShape (I.ty e) = some s ∧ I.intType e = true ∧
      (∀ w ∈ t.data, w = A.ofInt 0) ∧ e' = constZeroTensor A s := by
  unfold matMulZerosOnRhs at h
  simp only [Option.bind_eq_some_iff] at h
  obtain ⟨⟨x, y⟩, h1, t, h2, s, h3, h4⟩ := h
  dsimp only at h2 h3 h4
  split at h4
  · rename_i h5
    simp only [Bool.and_eq_true, Bool.not_eq_true', allAre, List.all_eq_true, decide_eq_true_eq] at h5
    cases h4
    exact ⟨x, t, s, by rw [asMM_some h1, dense_some h2], h3, h5.1.2, h5.2, rfl⟩
  · cases h4

omit [DecidableEq V] in
theorem matMulOfConsts_some {A : Alg V} {I : CInfo V} {e e' : CE V} (h : matMulOfConsts A I e = some e') :
    ∃ s t u, e = .mm (.cst true s) (.cst true t) ∧ matmul A s t = some u ∧ e' = .cst true u := by
  unfold matMulOfConsts at h
  simp only [Option.bind_eq_some_iff] at h
  obtain ⟨⟨x, y⟩, h1, s, h2, t, h3, h4⟩ := h
  dsimp only at h2 h3 h4
  split at h4
  · simp only [Option.map_eq_some_iff] at h4
    obtain ⟨u, h5, h6⟩ := h4
    rw [asMM_some h1, dense_some h2, dense_some h3]
    exact ⟨s, t, u, rfl, h5, h6.symm⟩
  · cases h4

/-! ### Their values -/

/-- What the compiler recorded is right: types fit, the types of operators with a constant operand name what the
constant settles, and every rank is known. -/
structure Honest (A : Alg V) (F : ℕ → Tensor V → Tensor V → Option (Tensor V)) (env : ℕ → Tensor V) (I : CInfo V) :
    Prop where
  types : ∀ e t, e.eval A F env = some t → HasCType t (I.ty e)
  settled : ∀ b x d c, Settled c.shape (I.ty (.bin b x (.cst d c)))
  ranked : ∀ e, I.ty e ≠ none

omit [Inhabited V] [DecidableEq V] in
theorem forall2_getD : ∀ {ds : List (Option ℕ)} {s : List ℕ},
    List.Forall₂ (fun d n => d = none ∨ d = some n) ds s → ∀ k, k < ds.length → ∀ n, ds.getD k none = some n →
    s.getD k 0 = n
  | _, _, .nil, k, hk, _, _ => by simp at hk
  | _, _, .cons h t, 0, _, n, hn => by
    simp only [List.getD_cons_zero] at hn ⊢
    rcases h with h | h
    · rw [h] at hn; cases hn
    · rw [h] at hn; exact Option.some.inj hn
  | _, _, .cons h t, k + 1, hk, n, hn => by
    simp only [List.getD_cons_succ] at hn ⊢
    exact forall2_getD t k (by simpa using hk) n hn

omit [DecidableEq V] in
theorem bshape_settled {x : Tensor V} {c : List ℕ} {T : CType} (hT : T ≠ none) (h1 : HasCType x T)
    (h2 : Settled c T) : bshape x.shape c = some x.shape := by
  cases T with
  | none => exact absurd rfl hT
  | some ds =>
    have hl := h1.length_eq
    obtain ⟨h3, h4⟩ := h2
    rw [bshape_comm]
    refine bshape_of_bto ⟨by omega, fun k hk => ?_⟩
    by_cases hc : c.getD k 0 = 1
    · exact .inl hc
    · right
      have := forall2_getD h1 _ (by omega) _ (h4 k hk hc)
      rw [← hl, this]

omit [DecidableEq V] in
theorem binary_neutral {f : V → V → V} {v : V} (hf : ∀ x, f x v = x) {x c : Tensor V}
    (hs : bshape x.shape c.shape = some x.shape) (hc : ∀ w ∈ c.data, w = v) : binary f x c = some x := by
  unfold binary
  rw [hs, Option.map_some]
  congr 1
  refine (eq_build rfl fun i hi => ?_).symm
  rw [bidx_self hi, hc _ (get_mem ((bto_bshape_right hs).inBounds hi)), hf]

omit [DecidableEq V] in
theorem binary_sub_neg [CommRing V] {A : Alg V} (hA : ConstAlg A) (x c : Tensor V) :
    binary (A.bin .sub) x c = binary (A.bin .add) x (c.map (A.un "Neg" [])) := by
  unfold binary
  rw [map_shape]
  rcases e : bshape x.shape c.shape with _ | s
  · rfl
  · simp only [Option.map_some, Option.some.injEq]
    refine build_congr fun i hi => ?_
    rw [hA.sub, hA.add, get_map _ _ ((bto_bshape_right e).inBounds hi), hA.neg, sub_eq_add_neg]

omit [DecidableEq V] [Inhabited V] in
theorem mapM_id_eq : ∀ {ds : List (Option ℕ)} {s : List ℕ}, ds.mapM id = some s → ds = s.map some
  | [], s, h => by cases h; rfl
  | d :: ds, s, h => by
    rw [List.mapM_cons] at h
    simp only [id, Option.bind_eq_bind, Option.bind_eq_some_iff, Option.pure_def, Option.some.injEq] at h
    obtain ⟨n, h1, t, h2, rfl⟩ := h
    rw [h1, mapM_id_eq h2]
    rfl

omit [DecidableEq V] in
theorem shape_static {t : Tensor V} {T : CType} {s : List ℕ} (h : HasCType t T) (hs : staticShape T = some s) :
    t.shape = s := by
  cases T with
  | none => cases hs
  | some ds =>
    rw [mapM_id_eq (show ds.mapM id = some s from hs)] at h
    have h' : List.Forall₂ (fun d n => d = none ∨ d = some n) (s.map some) t.shape := h
    rw [List.forall₂_map_left_iff] at h'
    have : List.Forall₂ (fun a b : ℕ => a = b) s t.shape := h'.imp fun a b hab => by
      rcases hab with hab | hab
      · cases hab
      · exact Option.some.inj hab
    rw [List.forall₂_eq_eq_eq] at this
    exact this.symm

omit [DecidableEq V] in
/-- The elements of the left operand that a product uses exist. -/
theorem matmul_left_in {a b : Tensor V} {bt idx : List ℕ} {k : ℕ} (ha : a.shape ≠ [])
    (hbt : bshape (batchOf a.shape) (batchOf b.shape) = some bt)
    (hk : k < (matOf a.shape).getLastD 0)
    (hi : InBounds (bt ++ (matOf a.shape).dropLast ++ (matOf b.shape).tail) idx) :
    InBounds a.shape (bidx (batchOf a.shape) (idx.take bt.length) ++
      (idx.drop bt.length).take ((matOf a.shape).length - 1) ++ [k]) := by
  have hl := hi.length
  simp only [List.length_append, List.length_dropLast, List.length_tail] at hl
  have e : idx = idx.take bt.length ++ (idx.drop bt.length).take ((matOf a.shape).length - 1) ++
      idx.drop (bt.length + ((matOf a.shape).length - 1)) := by
    rw [List.append_assoc, ← List.drop_drop, List.take_append_drop, List.take_append_drop]
  have l1 : (idx.take bt.length).length = bt.length := by rw [List.length_take]; omega
  have l2 : ((idx.drop bt.length).take ((matOf a.shape).length - 1)).length = (matOf a.shape).dropLast.length := by
    rw [List.length_take, List.length_drop, List.length_dropLast]; omega
  rw [e, inBounds_append (by rw [List.length_append, List.length_append, l1, l2]), inBounds_append l1] at hi
  have hbb := (bto_bshape hbt).inBounds hi.1.1
  have hlen : (bidx (batchOf a.shape) (idx.take bt.length)).length = (batchOf a.shape).length := hbb.length
  have hs : a.shape = batchOf a.shape ++ (matOf a.shape).dropLast ++ [(matOf a.shape).getLastD 0] := by
    conv_lhs => rw [← batch_mat a.shape]
    rw [List.append_assoc]
    congr 1
    have := matOf_ne ha
    rw [List.getLastD_eq_getLast?, List.getLast?_eq_getLast_of_ne_nil this, Option.getD_some,
      List.dropLast_append_getLast]
  have h2 : InBounds (batchOf a.shape ++ (matOf a.shape).dropLast)
      (bidx (batchOf a.shape) (idx.take bt.length) ++ (idx.drop bt.length).take ((matOf a.shape).length - 1)) :=
    (inBounds_append hlen).2 ⟨hbb, hi.1.2⟩
  have h3 : InBounds (batchOf a.shape ++ (matOf a.shape).dropLast ++ [(matOf a.shape).getLastD 0])
      (bidx (batchOf a.shape) (idx.take bt.length) ++ (idx.drop bt.length).take ((matOf a.shape).length - 1) ++ [k]) :=
    (inBounds_append h2.length).2 ⟨h2, by simpa [InBounds] using hk⟩
  rwa [← hs] at h3

omit [DecidableEq V] [Inhabited V] in
theorem sumOver_zero [CommRing V] {A : Alg V} (hA : RingAlg A) {ι : Type} {l : List ι} {f : ι → V}
    (h : ∀ i ∈ l, f i = 0) : sumOver A l f = A.ofInt 0 := by
  rw [sumOver_eq hA, hA.zero]
  have : l.map f = l.map fun _ => 0 := List.map_congr_left h
  rw [this]
  simp

omit [DecidableEq V] in
theorem matmul_zeros [CommRing V] {A : Alg V} (hA : RingAlg A) {a b y : Tensor V} (h : matmul A a b = some y)
    (hz : (∀ w ∈ a.data, w = A.ofInt 0) ∨ ∀ w ∈ b.data, w = A.ofInt 0) :
    y = build y.shape fun _ => A.ofInt 0 := by
  obtain ⟨h1, bt, h2, rfl⟩ := matmul_some.1 h
  rw [build_shape]
  refine build_congr fun idx hi => ?_
  refine sumOver_zero hA fun k hk => ?_
  rw [List.mem_range] at hk
  rw [hA.mul]
  rcases hz with hz | hz
  · rw [hz _ (get_mem (matmul_left_in h1.1 h2 hk hi)), hA.zero, zero_mul]
  · rw [hz _ (get_mem (matmul_right_in h1.2.1 h2 (h1.2.2 ▸ hk) hi)), hA.zero, mul_zero]

/-- One pattern keeps the value. -/
theorem apply_sound [CommRing V] {A : Alg V} (hA : ConstAlg A) {F : ℕ → Tensor V → Tensor V → Option (Tensor V)}
    {env : ℕ → Tensor V} {I : CInfo V} (hI : Honest A F env I) {r : CRule} (hr : r.exists?) {e e' : CE V}
    (h : r.apply A I e = some e') {y : Tensor V} (hy : e.eval A F env = some y) : e'.eval A F env = some y := by
  have ev : ∀ (b : Bin) (p q : CE V), (CE.bin b p q).eval A F env =
      ob (A.bin b) (p.eval A F env) (q.eval A F env) := fun _ _ _ => rfl
  have law : ∀ b : Bin, (b = .add ∨ b = .mul) →
      (∀ x y, A.bin b x y = A.bin b y x) ∧ ∀ x y z, A.bin b (A.bin b x y) z = A.bin b x (A.bin b y z) := by
    rintro b (rfl | rfl)
    · simp only [hA.add]
      exact ⟨add_comm, add_assoc⟩
    · simp only [hA.mul]
      exact ⟨mul_comm, mul_assoc⟩
  have neutral : ∀ (b : Bin) (v : V), (∀ x, A.bin b x v = x) → neutralOnRhs I b v e = some e' →
      e'.eval A F env = some y := by
    intro b v hv hn
    obtain ⟨t, rfl, h1, h2, h3⟩ := neutralOnRhs_some hn
    rw [ev] at hy
    rcases hx : e'.eval A F env with _ | x
    · rw [hx] at hy; cases hy
    rw [hx] at hy
    have hs : bshape x.shape t.shape = some x.shape :=
      bshape_settled (hI.ranked e') (hI.types e' x hx) (h2 ▸ hI.settled b e' true t)
    have := binary_neutral hv hs h3
    rw [← hy]
    exact this.symm
  cases r with
  | commutative b =>
    obtain ⟨c, x, rfl, -, -, rfl⟩ := constCommutative_some h
    obtain ⟨hc, -⟩ := law b (by simpa [CRule.exists?] using hr)
    rw [ev] at hy ⊢
    rwa [ob_comm hc]
  | associative1 b =>
    obtain ⟨x, c1, c2, rfl, -, -, -, rfl⟩ := constAssociative1_some h
    obtain ⟨-, ha⟩ := law b (by simpa [CRule.exists?] using hr)
    rw [ev, ev] at hy ⊢
    rwa [← ob_assoc ha]
  | associative2 b =>
    obtain ⟨x, c, z, rfl, -, -, -, rfl⟩ := constAssociative2_some h
    obtain ⟨hc, ha⟩ := law b (by simpa [CRule.exists?] using hr)
    rw [ev, ev] at hy ⊢
    rwa [ob_assoc ha, ob_comm hc (z.eval A F env), ← ob_assoc ha]
  | associative3 b =>
    obtain ⟨x, z, c, rfl, -, -, -, rfl⟩ := constAssociative3_some h
    obtain ⟨-, ha⟩ := law b (by simpa [CRule.exists?] using hr)
    rw [ev, ev] at hy ⊢
    rwa [ob_assoc ha]
  | associative4 b =>
    obtain ⟨x, c1, z, c2, rfl, -, -, -, -, rfl⟩ := constAssociative4_some h
    obtain ⟨hc, ha⟩ := law b (by simpa [CRule.exists?] using hr)
    rw [ev, ev, ev] at hy ⊢
    rw [ob_assoc ha, ← ob_assoc ha (z.eval A F env), ob_comm hc (z.eval A F env), ob_assoc ha (c1.eval A F env),
      ← ob_assoc ha]
    exact hy
  | fold b =>
    obtain ⟨s, t, u, rfl, h1, rfl⟩ := constProp_some h
    exact h1.symm.trans hy
  | addZeros =>
    exact neutral .add _ (fun x => by rw [hA.add, hA.zero, add_zero]) h
  | subZeros =>
    exact neutral .sub _ (fun x => by rw [hA.sub, hA.zero, sub_zero]) h
  | mulOnes =>
    exact neutral .mul _ (fun x => by rw [hA.mul, hA.one, mul_one]) h
  | divOnes =>
    exact neutral .div _ (fun x => by rw [hA.one, hA.div_one]) h
  | subToNeg =>
    obtain ⟨x, t, rfl, -, rfl⟩ := subConstToNeg_some h
    rw [ev] at hy ⊢
    rcases hx : x.eval A F env with _ | a
    · rw [hx] at hy; cases hy
    rw [hx] at hy
    exact (binary_sub_neg hA a t).symm.trans hy
  | mmZerosLhs =>
    obtain ⟨t, z, s, rfl, h1, -, h2, rfl⟩ := matMulZerosOnLhs_some h
    have hty := shape_static (hI.types _ _ hy) h1
    rcases hz : z.eval A F env with _ | b
    · rw [CE.eval, hz] at hy; cases hy
    have hm : matmul A t b = some y := by
      rw [CE.eval, hz] at hy
      exact hy
    have := matmul_zeros hA.toRingAlg hm (.inl h2)
    rw [hty] at this
    exact congrArg some this.symm
  | mmZerosRhs =>
    obtain ⟨z, t, s, rfl, h1, -, h2, rfl⟩ := matMulZerosOnRhs_some h
    have hty := shape_static (hI.types _ _ hy) h1
    rcases hz : z.eval A F env with _ | b
    · rw [CE.eval, hz] at hy; cases hy
    have hm : matmul A b t = some y := by
      rw [CE.eval, hz] at hy
      exact hy
    have := matmul_zeros hA.toRingAlg hm (.inr h2)
    rw [hty] at this
    exact congrArg some this.symm
  | mmFold =>
    obtain ⟨s, t, u, rfl, h1, rfl⟩ := matMulOfConsts_some h
    exact h1.symm.trans hy

/-- One step keeps the value. -/
theorem step_sound [CommRing V] {A : Alg V} (hA : ConstAlg A) {F : ℕ → Tensor V → Tensor V → Option (Tensor V)}
    {env : ℕ → Tensor V} {I : CInfo V} (hI : Honest A F env I) {e e' : CE V} (h : CStep A I e e') :
    ∀ {y : Tensor V}, e.eval A F env = some y → e'.eval A F env = some y := by
  have two : ∀ {x x' : CE V} {g : Tensor V → Option (Tensor V)}
      (_ : ∀ {y : Tensor V}, x.eval A F env = some y → x'.eval A F env = some y) {y : Tensor V},
      (x.eval A F env).bind g = some y → (x'.eval A F env).bind g = some y := by
    intro x x' g hx y hy
    obtain ⟨s, h1, h2⟩ := Option.bind_eq_some_iff.1 hy
    exact Option.bind_eq_some_iff.2 ⟨s, hx h1, h2⟩
  have two' : ∀ {x z z' : CE V} {g : Tensor V → Tensor V → Option (Tensor V)}
      (_ : ∀ {y : Tensor V}, z.eval A F env = some y → z'.eval A F env = some y) {y : Tensor V},
      ((x.eval A F env).bind fun s => (z.eval A F env).bind (g s)) = some y →
      ((x.eval A F env).bind fun s => (z'.eval A F env).bind (g s)) = some y := by
    intro x z z' g hx y hy
    obtain ⟨s, h1, h2⟩ := Option.bind_eq_some_iff.1 hy
    exact Option.bind_eq_some_iff.2 ⟨s, h1, two hx h2⟩
  induction h with
  | root r hr h => exact fun hy => apply_sound hA hI hr h hy
  | binL _ ih => exact fun hy => two ih hy
  | binR _ ih => exact fun hy => two' ih hy
  | mmL _ ih => exact fun hy => two ih hy
  | mmR _ ih => exact fun hy => two' ih hy
  | otherL _ ih => exact fun hy => two ih hy
  | otherR _ ih => exact fun hy => two' ih hy

end Verif.ConstProp
