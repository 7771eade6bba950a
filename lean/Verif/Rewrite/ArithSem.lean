import Verif.Rewrite.ArithRules
import Verif.Rewrite.ExpandLemmas
import Mathlib.Algebra.Field.Basic
import Mathlib.Algebra.BigOperators.Ring.List
import Mathlib.Tactic.Ring
import Mathlib.Tactic.FieldSimp

/-! # Facts about the operators that compute with elements -/

namespace Verif.Rewrite

variable {V : Type} [Inhabited V] {A : Alg V} {env : ℕ → Tensor V}

/-- Addition and multiplication of elements are those of a commutative ring. -/
structure RingAlg [CommRing V] (A : Alg V) : Prop where
  add : ∀ x y, A.bin .add x y = x + y
  mul : ∀ x y, A.bin .mul x y = x * y
  zero : A.ofInt 0 = 0
  one : A.ofRat 1 = 1

/-- The four operations on elements are those of a field. -/
structure FieldAlg [Field V] (A : Alg V) : Prop extends RingAlg A where
  sub : ∀ x y, A.bin .sub x y = x - y
  div : ∀ x y, A.bin .div x y = x / y
  neg : ∀ x, A.un "Neg" [] x = -x

omit [Inhabited V] in
theorem sumOver_eq [CommRing V] (h : RingAlg A) {ι : Type} (l : List ι) (f : ι → V) :
    sumOver A l f = (l.map f).sum := by
  unfold sumOver
  rw [h.zero]
  simp only [h.add]
  rw [List.sum_eq_foldl, List.foldl_map]

omit [Inhabited V] in
theorem sumOver_congr {ι : Type} {l : List ι} {f g : ι → V} (h : ∀ i ∈ l, f i = g i) :
    sumOver A l f = sumOver A l g := by
  unfold sumOver
  generalize A.ofInt 0 = z
  induction l generalizing z with
  | nil => rfl
  | cons a l ih =>
    rw [List.foldl_cons, List.foldl_cons, h a (by simp)]
    exact ih (fun i hi => h i (by simp [hi])) _

omit [Inhabited V] in
theorem sumOver_mul [CommRing V] (h : RingAlg A) {ι : Type} (l : List ι) (f : ι → V) (c : V) :
    sumOver A l (fun i => f i * c) = sumOver A l f * c := by
  rw [sumOver_eq h, sumOver_eq h, List.sum_map_mul_right]

/-! ### Shapes -/

theorem inBounds_append {s t i j : List ℕ} (h : i.length = s.length) :
    InBounds (s ++ t) (i ++ j) ↔ InBounds s i ∧ InBounds t j := by
  induction s generalizing i with
  | nil =>
    rw [List.length_eq_zero_iff.1 h]
    simp
  | cons d s ih =>
    cases i with
    | nil => simp at h
    | cons a i => simp [ih (by simpa using h), and_assoc]

theorem rowMajor_append : ∀ {s i : List ℕ} (t j : List ℕ), i.length = s.length →
    rowMajor (s ++ t) (i ++ j) = rowMajor s i * t.prod + rowMajor t j
  | [], [], t, j, _ => by simp [rowMajor]
  | d :: s, a :: i, t, j, h => by
    have := rowMajor_append (s := s) (i := i) t j (by simpa using h)
    simp only [List.cons_append, rowMajor, this, List.prod_append]
    ring
  | [], _ :: _, _, _, h => by simp at h
  | _ :: _, [], _, _, h => by simp at h

theorem bdims_of : ∀ {a s : List ℕ}, a.length = s.length →
    (∀ k, k < s.length → a.getD k 0 = 1 ∨ a.getD k 0 = s.getD k 0) → bdims a s = some s
  | [], [], _, _ => rfl
  | x :: a, y :: s, h, hk => by
    have h0 := hk 0 (by simp)
    have ih := bdims_of (a := a) (s := s) (by simpa using h)
      (fun k hk' => by simpa using hk (k + 1) (by simpa using hk'))
    have hb : bdim x y = some y := by
      unfold bdim
      simp at h0
      rcases h0 with h0 | h0
      · subst h0
        split
        · rename_i h1; rw [h1]
        · rfl
      · rw [if_pos h0, h0]
    simp [bdims, hb, ih]
  | [], _ :: _, h, _ => by simp at h
  | _ :: _, [], h, _ => by simp at h

/-- A shape that can be stretched to another one broadcasts to it. -/
theorem bshape_of_bto {a s : List ℕ} (h : Bto a s) : bshape a s = some s := by
  unfold bshape
  have hle := h.1
  rw [max_eq_right hle]
  have h2 : padOnes s.length s = s := by simp [padOnes]
  rw [h2]
  refine bdims_of (padOnes_length hle) fun k hk => ?_
  unfold padOnes
  by_cases hk' : k < s.length - a.length
  · left
    rw [List.getD_append _ _ _ _ (by simpa using hk'), List.getD_eq_getElem _ _ (by simpa using hk')]
    simp
  · rw [List.getD_append_right _ _ _ _ (by simpa using hk'), List.length_replicate]
    have := h.2 (k - (s.length - a.length)) (by omega)
    rwa [show s.length - a.length + (k - (s.length - a.length)) = k by omega] at this

theorem bto_of_bshape {a s : List ℕ} (h : bshape a s = some s) : Bto a s := bto_bshape h

/-- One parameter for each channel, followed by extents 1. -/
def chan (d k : ℕ) : List ℕ := d :: List.replicate k 1

theorem chan_prod (d k : ℕ) : (chan d k).prod = d := by simp [chan]

theorem bto_chan {pre rest : List ℕ} {d k : ℕ} (h : rest.length = k) : Bto (chan d k) (pre ++ d :: rest) := by
  unfold chan
  refine ⟨by simp; omega, fun j hj => ?_⟩
  cases j with
  | zero =>
    right
    rw [List.getD_append_right _ _ _ _ (by simp; omega)]
    simp [h]
  | succ j =>
    left
    simp only [List.length_cons, List.length_replicate, Nat.add_lt_add_iff_right] at hj
    simp [List.getD_eq_getElem?_getD, List.getElem?_replicate, hj]

theorem rowMajor_ones : ∀ (k : ℕ) (i : List ℕ), InBounds (List.replicate k 1) i → rowMajor (List.replicate k 1) i = 0
  | 0, i, h => by
    cases i <;> rfl
  | k + 1, i, h => by
    rw [List.replicate_succ] at h ⊢
    cases i with
    | nil => rfl
    | cons a i =>
      rw [inBounds_cons] at h
      rw [rowMajor, rowMajor_ones k i h.2]
      simp; omega

theorem bidx_cons_ones {d j : ℕ} {pre rest : List ℕ} (hj : j < d) :
    ∃ r, bidx (chan d rest.length) (pre ++ j :: rest) = j :: r := by
  unfold chan bidx
  have : (pre ++ j :: rest).length - (d :: List.replicate rest.length 1).length = pre.length := by simp
  rw [this, List.drop_left, List.zipWith_cons_cons]
  refine ⟨_, congrArg (· :: _) ?_⟩
  split
  · omega
  · rfl

/-- The parameter that a broadcast takes for a channel. -/
theorem chan_get {t : Tensor V} {d k j : ℕ} {pre rest : List ℕ} (ht : t.shape = chan d k) (hk : rest.length = k)
    (hj : j < d) : t.get (bidx t.shape (pre ++ j :: rest)) = t.data.getD j default := by
  subst hk
  obtain ⟨r, hr⟩ := bidx_cons_ones (pre := pre) (rest := rest) hj
  have hb : InBounds t.shape (bidx t.shape (pre ++ j :: rest)) := by
    rw [ht]
    have h1 : Bto (chan d rest.length) ((pre.map (· + 1)) ++ d :: rest.map (· + 1)) := bto_chan (by simp)
    refine h1.inBounds ?_
    rw [inBounds_append (by simp), inBounds_cons]
    have : ∀ l : List ℕ, InBounds (l.map (· + 1)) l := by
      intro l
      induction l with
      | nil => simp
      | cons a l ih => simp [ih]
    exact ⟨this _, hj, this _⟩
  unfold Tensor.get
  rw [ht, hr] at *
  unfold chan at *
  rw [inBounds_cons] at hb
  rw [rowMajor, rowMajor_ones _ _ hb.2]
  simp

theorem vec_get {t : Tensor V} {d j : ℕ} (ht : t.shape = [d]) : t.get [j] = t.data.getD j default := by
  unfold Tensor.get
  rw [ht]
  simp [rowMajor]

omit [Inhabited V] in
theorem retag_chan {t : Tensor V} {d k l : ℕ} (ht : t.shape = chan d k) :
    ∃ u, t.retag (chan d l) = some u ∧ u.shape = chan d l ∧ u.data = t.data := by
  unfold Tensor.retag
  rw [dif_pos (by rw [ht, chan_prod, chan_prod])]
  exact ⟨_, rfl, rfl, rfl⟩

/-! ### Inserting and removing the trailing axes -/

theorem nToM_axes {n k r : ℕ} (h : n + k ≤ r) (hn : 1 ≤ n) :
    (nToM n (n + k - 1)).mapM (normAxis r) = some ((List.range k).map (n + ·)) := by
  unfold nToM
  rw [show n + k - 1 + 1 - n = k by omega]
  rw [mapM_forall₂, List.forall₂_map_left_iff, List.forall₂_map_right_iff]
  refine List.forall₂_same.2 fun i hi => ?_
  rw [List.mem_range] at hi
  unfold normAxis
  rw [if_pos (by constructor <;> omega)]
  exact congrArg some (Int.toNat_natCast _)

theorem nToM_length (n k : ℕ) (hn : 1 ≤ n) : (nToM n (n + k - 1)).length = k := by
  unfold nToM
  simp; omega

theorem dropFrom_all {ax : List ℕ} : ∀ (k n : ℕ), (∀ j < n, k + j ∈ ax) →
    dropFrom ax k (List.replicate n 1) = []
  | _, 0, _ => rfl
  | k, n + 1, h => by
    rw [List.replicate_succ, dropFrom_cons, if_pos (by simpa using h 0 (by omega))]
    exact dropFrom_all (k + 1) n fun j hj => by
      have := h (j + 1) (by omega)
      rwa [show k + 1 + j = k + (j + 1) by omega]

theorem insertOnes_all {ax : List ℕ} : ∀ (k n : ℕ), insertOnes ax k n [] = List.replicate n 1
  | _, 0 => rfl
  | k, n + 1 => by
    unfold insertOnes
    rw [List.replicate_succ]
    split
    · rw [insertOnes_all]
    · simp [insertOnes_all]

/-- Removing the trailing axes of extent 1. -/
theorem squeeze_chan {t : Tensor V} {d k : ℕ} (ht : t.shape = chan d k) :
    ∃ u, squeeze t (some (nToM 1 k)) = some u ∧ u.shape = [d] ∧ u.data = t.data := by
  obtain ⟨u, h1, h2, h3⟩ := retag_chan (l := 0) ht
  refine ⟨u, squeeze_some.2 ⟨(List.range k).map (1 + ·), ?_, ?_, ?_⟩, h2, h3⟩
  · have := nToM_axes (n := 1) (k := k) (r := t.shape.length) (by rw [ht]; simp [chan]; omega) le_rfl
    rwa [Nat.add_sub_cancel_left] at this
  · intro a ha
    obtain ⟨i, hi, rfl⟩ := List.mem_map.1 ha
    rw [List.mem_range] at hi
    rw [ht, chan, Nat.add_comm]
    simp [List.getD_eq_getElem?_getD, List.getElem?_replicate, hi]
  · have : dropFrom ((List.range k).map (1 + ·)) 0 t.shape = chan d 0 := by
      rw [ht, chan, dropFrom_cons, if_neg (by simp)]
      rw [dropFrom_all (0 + 1) k fun j hj => by simp; omega]
      rfl
    rw [this]
    exact h1

/-- Appending axes of extent 1 to a vector. -/
theorem unsqueeze_vec {t : Tensor V} {d k : ℕ} (ht : t.shape = [d]) :
    ∃ u, unsqueeze t (nToM 1 k) = some u ∧ u.shape = chan d k ∧ u.data = t.data := by
  obtain ⟨u, h1, h2, h3⟩ := retag_chan (k := 0) (l := k) ht
  have hl : (nToM 1 k).length = k := by
    have := nToM_length 1 k le_rfl
    rwa [Nat.add_sub_cancel_left] at this
  refine ⟨u, unsqueeze_some.2 ⟨(List.range k).map (1 + ·), ?_, ?_, ?_⟩, h2, h3⟩
  · have := nToM_axes (n := 1) (k := k) (r := t.shape.length + (nToM 1 k).length) (by rw [ht, hl]; simp) le_rfl
    rwa [Nat.add_sub_cancel_left] at this
  · exact List.Nodup.map (fun a b h => by simpa using h) List.nodup_range
  · have : insertOnes ((List.range k).map (1 + ·)) 0 (t.shape.length + (nToM 1 k).length) t.shape = chan d k := by
      rw [ht, hl, List.length_singleton, Nat.add_comm]
      unfold insertOnes
      rw [if_neg (by simp)]
      simp only
      rw [insertOnes_all]
      rfl
    rw [this]
    exact h1

/-- Appending one more axis of extent 1. -/
theorem unsqueeze_last {t : Tensor V} {d k : ℕ} (ht : t.shape = chan d k) :
    ∃ u, unsqueeze t [((k + 1 : ℕ) : ℤ)] = some u ∧ u.shape = chan d (k + 1) ∧ u.data = t.data := by
  obtain ⟨u, h1, h2, h3⟩ := retag_chan (l := k + 1) ht
  have hl : t.shape.length = k + 1 := by rw [ht]; simp [chan]
  refine ⟨u, unsqueeze_some.2 ⟨[k + 1], ?_, by simp, ?_⟩, h2, h3⟩
  · rw [mapM_forall₂]
    refine .cons ?_ .nil
    unfold normAxis
    rw [if_pos (by rw [hl]; constructor <;> simp <;> omega)]
    simp
  · have h4 : ∀ (n j : ℕ), j + n = k + 1 → insertOnes [k + 1] j (n + 1) (List.replicate n 1) = List.replicate (n + 1) 1 := by
      intro n
      induction n with
      | zero =>
        intro j hj
        unfold insertOnes
        rw [if_pos (by simp; omega)]
        rfl
      | succ n ih =>
        intro j hj
        rw [List.replicate_succ]
        unfold insertOnes
        rw [if_neg (by simp; omega)]
        simp only
        rw [ih (j + 1) (by omega), List.replicate_succ]
        rfl
    have : insertOnes [k + 1] 0 (t.shape.length + [((k + 1 : ℕ) : ℤ)].length) t.shape = chan d (k + 1) := by
      rw [hl, ht, List.length_singleton]
      unfold insertOnes chan
      rw [if_neg (by simp)]
      simp only
      rw [h4 k (0 + 1) (by omega)]
    rw [this]
    exact h1

/-! ### Element-wise operators with parameters for the channels -/

/-- An operator whose second operand has a parameter for each channel. -/
theorem binary_chan {f : V → V → V} {a b : Tensor V} {pre rest : List ℕ} {d k : ℕ}
    (ha : a.shape = pre ++ d :: rest) (hb : b.shape = chan d k) (hk : rest.length = k) :
    binary f a b = some (build (pre ++ d :: rest) fun i =>
      f (a.get i) (b.data.getD (i.getD pre.length 0) default)) := by
  unfold binary
  rw [ha, hb, bshape_comm, bshape_of_bto (bto_chan hk), Option.map_some]
  congr 1
  refine build_congr fun i hi => ?_
  rw [bidx_self hi, ← hb]
  congr 1
  have hl := hi.length
  have hsplit : i = i.take pre.length ++ i.getD pre.length 0 :: i.drop (pre.length + 1) := by
    have : pre.length < i.length := by rw [hl]; simp
    rw [List.getD_eq_getElem _ _ this, List.getElem_cons_drop, List.take_append_drop]
  have hlt : i.getD pre.length 0 < d := by
    have := (inBounds_getD.1 hi).2 pre.length (by simp)
    rw [List.getD_append_right _ _ _ _ le_rfl] at this
    simpa using this
  conv_lhs => rw [hsplit]
  refine chan_get hb ?_ hlt
  rw [List.length_drop, hl]
  simp; omega

/-- Two vectors of parameters. -/
theorem binary_vecs {f : V → V → V} {a b : Tensor V} {d : ℕ} (ha : a.shape = [d]) (hb : b.shape = [d]) :
    ∃ u, binary f a b = some u ∧ u.shape = [d] ∧
      ∀ j < d, u.data.getD j default = f (a.data.getD j default) (b.data.getD j default) := by
  refine ⟨_, binary_same ha hb, rfl, fun j hj => ?_⟩
  have hi : InBounds [d] [j] := by simpa using hj
  rw [← vec_get (t := build [d] _) (d := d) rfl, get_build _ hi, vec_get ha, vec_get hb]

/-- A vector of parameters and a number. -/
theorem binary_vec_one {f : V → V → V} {a b : Tensor V} {d : ℕ} (ha : a.shape = [d]) (hb : b.shape = [1]) :
    ∃ u, binary f a b = some u ∧ u.shape = [d] ∧
      ∀ j < d, u.data.getD j default = f (a.data.getD j default) (b.data.getD 0 default) := by
  refine ⟨_, binary_sc_right (.inr hb) (.inr (by rw [ha]; simp)), ha, fun j hj => ?_⟩
  have hl : j < a.data.length := by rw [a.wf, ha]; simpa using hj
  have h1 : b.one = b.data.getD 0 default := by
    unfold Tensor.one
    cases b.data <;> rfl
  rw [← h1]
  unfold Tensor.map
  rw [List.getD_eq_getElem _ _ (by simpa using hl), List.getD_eq_getElem _ _ hl, List.getElem_map]

/-- The element-wise image of a vector. -/
theorem map_vec {f : V → V} {a : Tensor V} {d j : ℕ} (ha : a.shape = [d]) (hj : j < d) :
    (a.map f).data.getD j default = f (a.data.getD j default) := by
  have hl : j < a.data.length := by rw [a.wf, ha]; simpa using hj
  unfold Tensor.map
  rw [List.getD_eq_getElem _ _ (by simpa using hl), List.getD_eq_getElem _ _ hl, List.getElem_map]

/-! ### Conv -/

theorem conv_some {at_ : WinAttrs} {x w y : Tensor V} {b : Option (Tensor V)} :
    conv A at_ x w b = some y ↔ ∃ n c xs m cg ks ax, x.shape = n :: c :: xs ∧ w.shape = m :: cg :: ks ∧
      winAxes at_ xs ks = some ax ∧
      (0 < at_.group ∧ c = cg * at_.group ∧ at_.group ∣ m ∧ at_.kernel.getD ks = ks) ∧
      (∀ t, b = some t → t.shape = [m]) ∧
      y = build (n :: m :: ax.map WinAx.out) fun idx =>
        addOpt A (convDot A ax at_.group m cg ks x w idx) (b.map fun b => b.get [idx.getD 1 0]) := by
  unfold conv
  constructor
  · intro h
    split at h
    · rename_i n c xs m cg ks hx hw
      obtain ⟨ax, h1, h2⟩ := Option.bind_eq_some_iff.1 h
      split at h2
      · rename_i h3
        cases h2
        refine ⟨n, c, xs, m, cg, ks, ax, hx, hw, h1, ⟨h3.1, h3.2.1, h3.2.2.1, h3.2.2.2.1⟩, ?_, rfl⟩
        intro t ht
        have := h3.2.2.2.2
        rw [ht] at this
        simpa using this
      · cases h2
    · cases h
  · rintro ⟨n, c, xs, m, cg, ks, ax, hx, hw, h1, h2, h3, rfl⟩
    rw [hx, hw]
    simp only [h1, Option.bind_some]
    rw [if_pos]
    refine ⟨h2.1, h2.2.1, h2.2.2.1, h2.2.2.2, ?_⟩
    cases b with
    | none => rfl
    | some t => simp [h3 t rfl]

theorem winAxes_length {at_ : WinAttrs} {xs ks : List ℕ} {ax : List WinAx} (h : winAxes at_ xs ks = some ax) :
    ax.length = xs.length ∧ ks.length = xs.length := by
  unfold winAxes at h
  simp only at h
  split at h
  · rename_i hc
    have := (mapM_forall₂.1 h).length_eq
    simp at this
    exact ⟨this.symm, hc.1⟩
  · cases h

/-- Scaling the weights of every output channel scales the convolution. -/
theorem convDot_scale [CommRing V] (h : RingAlg A) {ax : List WinAx} {group m cg : ℕ} {ks idx : List ℕ}
    {x w w' : Tensor V} {s : V} (hw : ∀ ck, InBounds (cg :: ks) ck → w'.get (idx.getD 1 0 :: ck) =
      w.get (idx.getD 1 0 :: ck) * s) :
    convDot A ax group m cg ks x w' idx = convDot A ax group m cg ks x w idx * s := by
  unfold convDot
  rw [← sumOver_mul h]
  refine sumOver_congr fun ck hck => ?_
  rw [hw ck (mem_allIndices.1 hck), h.mul, h.mul, mul_assoc]

/-! ### Evaluation -/

theorem eval_conv {at_ : WinAttrs} {x w b : Ex V} {ty : STy} {v : Option (Tensor V)} :
    eval A env (.op (.conv at_) [x, w, b] ty) = some v ↔
      ∃ x' w' b' y, eval A env x = some (some x') ∧ eval A env w = some (some w') ∧ eval A env b = some b' ∧
        conv A at_ x' w' b' = some y ∧ v = some y := by
  rw [eval_op3]
  constructor
  · rintro ⟨s, t, u, z, h1, h2, h3, h4, h5⟩
    match s, t, h4 with
    | some s, some t, h4 => exact ⟨s, t, u, z, h1, h2, h3, h4, h5⟩
    | none, _, h4 => simp [sem] at h4
    | some _, none, h4 => simp [sem] at h4
  · rintro ⟨s, t, u, z, h1, h2, h3, h4, h5⟩
    exact ⟨some s, some t, u, z, h1, h2, h3, h4, h5⟩

theorem eval_gemm {al be : ℚ} {ta tb : ℤ} {x w b : Ex V} {ty : STy} {v : Option (Tensor V)} :
    eval A env (.op (.gemm al be ta tb) [x, w, b] ty) = some v ↔
      ∃ x' w' b' y, eval A env x = some (some x') ∧ eval A env w = some (some w') ∧ eval A env b = some b' ∧
        gemm A al be (ta != 0) (tb != 0) x' w' b' = some y ∧ v = some y := by
  rw [eval_op3]
  constructor
  · rintro ⟨s, t, u, z, h1, h2, h3, h4, h5⟩
    match s, t, h4 with
    | some s, some t, h4 => exact ⟨s, t, u, z, h1, h2, h3, h4, h5⟩
    | none, _, h4 => simp [sem] at h4
    | some _, none, h4 => simp [sem] at h4
  · rintro ⟨s, t, u, z, h1, h2, h3, h4, h5⟩
    exact ⟨some s, some t, u, z, h1, h2, h3, h4, h5⟩

theorem eval_matmul {x w : Ex V} {ty : STy} {v : Option (Tensor V)} :
    eval A env (.op .matmul [x, w] ty) = some v ↔
      ∃ x' w' y, eval A env x = some (some x') ∧ eval A env w = some (some w') ∧
        matmul A x' w' = some y ∧ v = some y := by
  rw [eval_op2]
  constructor
  · rintro ⟨s, t, z, h1, h2, h4, h5⟩
    match s, t, h4 with
    | some s, some t, h4 => exact ⟨s, t, z, h1, h2, h4, h5⟩
    | none, _, h4 => simp [sem] at h4
    | some _, none, h4 => simp [sem] at h4
  · rintro ⟨s, t, z, h1, h2, h4, h5⟩
    exact ⟨some s, some t, z, h1, h2, h4, h5⟩

omit [Inhabited V] in
theorem ints_ofInts (l : List ℤ) : ints A (ofInts A l) = some l := by
  unfold ints ofInts
  rw [if_pos (by rfl)]
  congr 1
  simp only
  rw [List.map_map]
  conv_rhs => rw [← List.map_id l]
  exact List.map_congr_left fun n _ => A.toInt_ofInt n

/-- Squeeze by a constant of the axes `1, ..., k`. -/
theorem eval_squeeze_chan {e : Ex V} {t : Tensor V} {d k : ℕ} {ty : STy} (he : eval A env e = some (some t))
    (ht : t.shape = chan d k) :
    ∃ u, eval A env (.op .squeeze [e, intsConst A (nToM 1 k)] ty) = some (some u) ∧ u.shape = [d] ∧
      u.data = t.data := by
  obtain ⟨u, h1, h2, h3⟩ := squeeze_chan ht
  exact ⟨u, eval_squeeze_const.2 ⟨t, _, u, he, ints_ofInts _, h1, rfl⟩, h2, h3⟩

/-- Unsqueeze of a vector by a constant of the axes `1, ..., k`. -/
theorem eval_unsqueeze_vec {e : Ex V} {t : Tensor V} {d k : ℕ} {ty : STy} (he : eval A env e = some (some t))
    (ht : t.shape = [d]) :
    ∃ u, eval A env (.op .unsqueeze [e, intsConst A (nToM 1 k)] ty) = some (some u) ∧ u.shape = chan d k ∧
      u.data = t.data := by
  obtain ⟨u, h1, h2, h3⟩ := unsqueeze_vec (k := k) ht
  exact ⟨u, eval_unsqueeze.2 ⟨t, _, _, u, he, by rw [intsConst, eval], ints_ofInts _, h1, rfl⟩, h2, h3⟩

theorem onesFrom1_chan {s : List ℕ} (h : onesFrom1 s = true) (h0 : 0 < s.length) :
    s = chan (s.headD 0) (s.length - 1) := by
  cases s with
  | nil => simp at h0
  | cons d s =>
    unfold onesFrom1 at h
    simp only [List.drop_succ_cons, List.drop_zero, List.all_eq_true, decide_eq_true_eq] at h
    simp only [chan, List.headD_cons, List.length_cons, Nat.add_sub_cancel, List.cons.injEq, true_and]
    exact List.eq_replicate_iff.2 ⟨rfl, h⟩

end Verif.Rewrite
