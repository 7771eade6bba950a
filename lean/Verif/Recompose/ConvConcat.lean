import Verif.Rewrite.ConcatLemmas
import Verif.Rewrite.ArithSem

/-! # Conv with concatenated weights -/

namespace Verif.Recompose

open Verif.Rewrite

variable {V : Type} [Inhabited V] {A : Alg V}

theorem sumOver_congr' {α : Type} {l : List α} {f g : α → V} (h : ∀ a ∈ l, f a = g a) :
    sumOver A l f = sumOver A l g := by
  unfold sumOver
  exact List.foldl_ext _ _ _ fun acc a ha => by rw [h a ha]

/-- One convolution of several over the same input: weights, bias and result. -/
structure Part (V : Type) where
  w : Tensor V
  b : Option (Tensor V)
  y : Tensor V

/-- The bias where there is one. -/
def Part.bias (p : Part V) : Tensor V := p.b.getD p.w

/-- What an element of the convolution is, from the weights and the bias of its channel. -/
def elem (A : Alg V) (ax : List WinAx) (cg : ℕ) (ks : List ℕ) (x : Tensor V) (wg : List ℕ → V) (bg : Option V)
    (idx : List ℕ) : V :=
  addOpt A (sumOver A (allIndices (cg :: ks)) fun ck =>
    A.bin .mul
      (match winPos ax (idx.drop 2) (ck.drop 1) with
       | some p => x.get (idx.getD 0 0 :: (0 * cg + ck.getD 0 0) :: p)
       | none => A.ofInt 0)
      (wg ck)) bg

theorem elem_congr {ax : List WinAx} {cg : ℕ} {ks : List ℕ} {x : Tensor V} {wg wg' : List ℕ → V} {bg bg' : Option V}
    {idx : List ℕ} (h : ∀ ck, InBounds (cg :: ks) ck → wg ck = wg' ck) (hb : bg = bg') :
    elem A ax cg ks x wg bg idx = elem A ax cg ks x wg' bg' idx := by
  unfold elem
  rw [hb]
  congr 1
  exact sumOver_congr' fun ck hck => by rw [h ck (mem_allIndices.1 hck)]

theorem dot_elem {ax : List WinAx} {m cg : ℕ} {ks : List ℕ} {x w : Tensor V} {b : Option V} {idx : List ℕ}
    (h : idx.getD 1 0 < m) :
    addOpt A (convDot A ax 1 m cg ks x w idx) b =
      elem A ax cg ks x (fun ck => w.get (idx.getD 1 0 :: ck)) b idx := by
  unfold elem convDot
  rw [Nat.div_one, Nat.div_eq_of_lt h]
  rfl

/-- What is known of every part. -/
def IsPart (A : Alg V) (a : WinAttrs) (x : Tensor V) (cg : ℕ) (ks : List ℕ) (p : Part V) : Prop :=
  conv A a x p.w p.b = some p.y ∧ ∃ m, p.w.shape = m :: cg :: ks

theorem part_get {a : WinAttrs} {x : Tensor V} {n c cg m : ℕ} {xs ks : List ℕ} {ax : List WinAx} {p : Part V}
    (hg : a.group = 1) (hx : x.shape = n :: c :: xs) (hax : winAxes a xs ks = some ax)
    (h : conv A a x p.w p.b = some p.y) (hw : p.w.shape = m :: cg :: ks) :
    p.y.shape = n :: m :: ax.map WinAx.out ∧ (∀ t, p.b = some t → t.shape = [m]) ∧
    (c = cg ∧ a.kernel.getD ks = ks) ∧
    ∀ idx, InBounds (n :: m :: ax.map WinAx.out) idx →
      p.y.get idx = elem A ax cg ks x (fun ck => p.w.get (idx.getD 1 0 :: ck))
        (p.b.map fun b => b.get [idx.getD 1 0]) idx := by
  obtain ⟨n', c', xs', m', cg', ks', ax', h1, h2, h3, h4, h5, h6⟩ := conv_some.1 h
  rw [hx] at h1
  rw [hw] at h2
  cases h1
  cases h2
  rw [hax] at h3
  cases h3
  refine ⟨by rw [h6, build_shape], h5, ⟨by rw [h4.2.1, hg, Nat.mul_one], h4.2.2.2⟩, ?_⟩
  intro idx hi
  have hlt : idx.getD 1 0 < m := (inBounds_getD.1 hi).2 1 (by simp)
  rw [h6, get_build _ hi, hg, dot_elem hlt]

theorem parts_get {a : WinAttrs} {x : Tensor V} {n c cg : ℕ} {xs ks : List ℕ} {ax : List WinAx}
    (hg : a.group = 1) (hx : x.shape = n :: c :: xs) (hax : winAxes a xs ks = some ax) {bs : Bool} :
    ∀ (l : List (Part V)), (∀ p ∈ l, IsPart A a x cg ks p) → (∀ p ∈ l, p.b.isSome = bs) →
    ∀ (i o : ℕ) (r : List ℕ), InBounds (n :: (l.map fun p => p.w.shape.getD 0 0).sum :: ax.map WinAx.out)
      (i :: o :: r) →
    concatGet 1 (l.map Part.y) (i :: o :: r) =
      elem A ax cg ks x (fun ck => concatGet 0 (l.map Part.w) (o :: ck))
        (if bs then some (concatGet 0 (l.map Part.bias) [o]) else none) (i :: o :: r)
  | [], _, _, i, o, r, hi => by
    have := (inBounds_getD.1 hi).2 1 (by simp)
    simp at this
  | p :: l, hp, hb, i, o, r, hi => by
    obtain ⟨hc, m, hw⟩ := hp p (by simp)
    obtain ⟨hs, hbs, -, hget⟩ := part_get hg hx hax hc hw
    have hi' := inBounds_getD.1 hi
    have hlen : r.length = (ax.map WinAx.out).length := by
      have := hi'.1
      simpa using this
    by_cases ho : o < m
    · have hin : InBounds (n :: m :: ax.map WinAx.out) (i :: o :: r) := by
        refine inBounds_getD.2 ⟨by simp [hlen], ?_⟩
        intro k hk
        rcases k with _ | _ | k
        · exact hi'.2 0 (by simp)
        · simpa using ho
        · exact hi'.2 (k + 2) (by simpa using hk)
      rw [List.map_cons, concatGet, hs, if_pos (by simpa using ho), hget _ hin]
      refine elem_congr ?_ ?_
      · intro ck _
        rw [List.map_cons, concatGet, hw, if_pos (by simpa using ho)]
        rfl
      · have hbp := hb p (by simp)
        rcases hpb : p.b with _ | t
        · rw [hpb] at hbp
          subst hbp
          rfl
        · rw [hpb] at hbp
          subst hbp
          have ht := hbs t hpb
          simp only [Option.map_some, if_true, List.map_cons]
          have hbias : p.bias = t := by rw [Part.bias, hpb]; rfl
          rw [concatGet, hbias, ht]
          rw [if_pos (show [o].getD 0 0 < [m].getD 0 0 by simpa using ho)]
          rfl
    · have hsum : ((p :: l).map fun p => p.w.shape.getD 0 0).sum =
          m + (l.map fun p => p.w.shape.getD 0 0).sum := by
        rw [List.map_cons, List.sum_cons, hw]
        rfl
      have hin : InBounds (n :: (l.map fun p => p.w.shape.getD 0 0).sum :: ax.map WinAx.out) (i :: (o - m) :: r) := by
        refine inBounds_getD.2 ⟨by simp [hlen], ?_⟩
        intro k hk
        rcases k with _ | _ | k
        · exact hi'.2 0 (by simp)
        · have h2 := hi'.2 1 (by simp)
          simp only [List.getD_cons_succ, List.getD_cons_zero] at h2 ⊢
          rw [hsum] at h2
          omega
        · exact hi'.2 (k + 2) (by simpa using hk)
      have ih := parts_get hg hx hax l (fun q hq => hp q (by simp [hq])) (fun q hq => hb q (by simp [hq])) i (o - m) r hin
      rw [List.map_cons, concatGet, hs, if_neg (by simpa using ho)]
      simp only [List.getD_cons_succ, List.getD_cons_zero, List.set_cons_succ, List.set_cons_zero]
      rw [ih]
      refine (elem_congr (wg' := fun ck => concatGet 0 ((p :: l).map Part.w) (o :: ck))
        (bg' := if bs then some (concatGet 0 ((p :: l).map Part.bias) [o]) else none) ?_ ?_).trans ?_
      · intro ck _
        rw [List.map_cons, concatGet, hw, if_neg (by simpa using ho)]
        rfl
      · cases bs with
        | false => rfl
        | true =>
          have hbp := hb p (by simp)
          obtain ⟨t, hpb⟩ := Option.isSome_iff_exists.1 hbp
          have ht := hbs t hpb
          have hbias : p.bias = t := by rw [Part.bias, hpb]; rfl
          simp only [if_true, List.map_cons]
          rw [concatGet, hbias, ht, if_neg (by simpa using ho)]
          rfl
      · rfl

/-- Concatenated weights and biases make one convolution out of several, whose result is the concatenation of
their results. -/
theorem conv_concat {a : WinAttrs} {x : Tensor V} {cg : ℕ} {ks : List ℕ} {bs : Bool} {l : List (Part V)}
    (hg : a.group = 1) (hne : l ≠ []) (hp : ∀ p ∈ l, IsPart A a x cg ks p) (hb : ∀ p ∈ l, p.b.isSome = bs) :
    ∃ w y, concat (l.map Part.w) 0 = some w ∧ concat (l.map Part.y) 1 = some y ∧
      (bs = true → ∃ b, concat (l.map Part.bias) 0 = some b ∧ conv A a x w (some b) = some y) ∧
      (bs = false → conv A a x w none = some y) := by
  obtain ⟨p0, l0, rfl⟩ : ∃ p0 l0, l = p0 :: l0 := by
    cases l with
    | nil => exact absurd rfl hne
    | cons p0 l0 => exact ⟨p0, l0, rfl⟩
  set l := p0 :: l0 with hl
  have hp0 : p0 ∈ l := by simp [hl]
  obtain ⟨hc0, m0, hw0⟩ := hp p0 hp0
  obtain ⟨n, c, xs, m', cg', ks', ax, hx, h2, hax, -, -, -⟩ := conv_some.1 hc0
  rw [hw0] at h2
  cases h2
  have hshape : ∀ p ∈ l, ∃ m, p.w.shape = m :: cg :: ks ∧ p.y.shape = n :: m :: ax.map WinAx.out ∧
      (∀ t, p.b = some t → t.shape = [m]) := by
    intro p hpl
    obtain ⟨hc, m, hw⟩ := hp p hpl
    have := part_get hg hx hax hc hw
    exact ⟨m, hw, this.1, this.2.1⟩
  obtain ⟨hy0, -, ⟨hcc, hk⟩, -⟩ := part_get hg hx hax hc0 hw0
  set M := (l.map fun p => p.w.shape.getD 0 0).sum with hM
  have hsumy : ((l.map Part.y).map fun u => u.shape.getD 1 0).sum = M := by
    rw [List.map_map, hM]
    congr 1
    refine List.map_congr_left fun p hpl => ?_
    obtain ⟨m, h1, h2, -⟩ := hshape p hpl
    simp [h1, h2]
  have hsumw : ((l.map Part.w).map fun u => u.shape.getD 0 0).sum = M := by
    rw [List.map_map, hM]
    rfl
  have hW : concat (l.map Part.w) 0 = some (build (M :: cg :: ks) (concatGet 0 (l.map Part.w))) := by
    refine concat_some.2 ⟨p0.w, l0.map Part.w, 0, rfl, by rw [hw0]; simp [normAxis]; omega, ?_, ?_⟩
    · intro u hu
      obtain ⟨p, hpl, rfl⟩ := List.mem_map.1 hu
      obtain ⟨m, h1, -⟩ := hshape p hpl
      rw [h1, hw0]
      rfl
    · rw [hsumw, hw0]
      rfl
  have hY : concat (l.map Part.y) 1 = some (build (n :: M :: ax.map WinAx.out) (concatGet 1 (l.map Part.y))) := by
    refine concat_some.2 ⟨p0.y, l0.map Part.y, 1, rfl, by rw [hy0]; simp [normAxis], ?_, ?_⟩
    · intro u hu
      obtain ⟨p, hpl, rfl⟩ := List.mem_map.1 hu
      obtain ⟨m, -, h1, -⟩ := hshape p hpl
      rw [h1, hy0]
      rfl
    · rw [hsumy, hy0]
      rfl
  refine ⟨_, _, hW, hY, ?_, ?_⟩
  · rintro rfl
    have hbs : ∀ p ∈ l, ∃ m, p.w.shape = m :: cg :: ks ∧ p.bias.shape = [m] := by
      intro p hpl
      obtain ⟨m, h1, -, h3⟩ := hshape p hpl
      obtain ⟨t, ht⟩ := Option.isSome_iff_exists.1 (hb p hpl)
      exact ⟨m, h1, by rw [Part.bias, ht]; exact h3 t ht⟩
    have hsumb : ((l.map Part.bias).map fun u => u.shape.getD 0 0).sum = M := by
      rw [List.map_map, hM]
      congr 1
      refine List.map_congr_left fun p hpl => ?_
      obtain ⟨m, h1, h2⟩ := hbs p hpl
      simp [h1, h2]
    have hB : concat (l.map Part.bias) 0 = some (build [M] (concatGet 0 (l.map Part.bias))) := by
      obtain ⟨m, -, hb0⟩ := hbs p0 hp0
      refine concat_some.2 ⟨p0.bias, l0.map Part.bias, 0, rfl, by rw [hb0]; simp [normAxis], ?_, ?_⟩
      · intro u hu
        obtain ⟨p, hpl, rfl⟩ := List.mem_map.1 hu
        obtain ⟨m, -, h1⟩ := hbs p hpl
        rw [h1, hb0]
        rfl
      · rw [hsumb, hb0]
        rfl
    refine ⟨_, hB, conv_some.2 ⟨n, c, xs, M, cg, ks, ax, hx, rfl, hax, ⟨by omega, by rw [hg, Nat.mul_one, hcc],
      by rw [hg]; exact one_dvd _, hk⟩, ?_, ?_⟩⟩
    · intro t ht
      cases ht
      rfl
    · refine build_congr fun idx hi => ?_
      have hlen := (inBounds_getD.1 hi).1
      rcases idx with _ | ⟨i, _ | ⟨o, r⟩⟩
      · simp at hlen
      · simp at hlen
      have ho : o < M := (inBounds_getD.1 hi).2 1 (by simp)
      rw [hg, dot_elem (by simpa using ho), parts_get hg hx hax l hp hb i o r hi]
      refine elem_congr ?_ ?_
      · intro ck hck
        have : InBounds (M :: cg :: ks) (o :: ck) := .cons ho hck
        simp only [List.getD_cons_succ, List.getD_cons_zero]
        rw [get_build _ this]
      · have : InBounds [M] [o] := .cons ho .nil
        simp only [List.getD_cons_succ, List.getD_cons_zero, Option.map_some, if_true]
        rw [get_build _ this]
  · rintro rfl
    refine conv_some.2 ⟨n, c, xs, M, cg, ks, ax, hx, rfl, hax, ⟨by omega, by rw [hg, Nat.mul_one, hcc],
      by rw [hg]; exact one_dvd _, hk⟩, (by intro t ht; cases ht), ?_⟩
    · refine build_congr fun idx hi => ?_
      have hlen := (inBounds_getD.1 hi).1
      rcases idx with _ | ⟨i, _ | ⟨o, r⟩⟩
      · simp at hlen
      · simp at hlen
      have ho : o < M := (inBounds_getD.1 hi).2 1 (by simp)
      rw [hg, dot_elem (by simpa using ho), parts_get hg hx hax l hp hb i o r hi]
      refine elem_congr ?_ rfl
      intro ck hck
      have : InBounds (M :: cg :: ks) (o :: ck) := .cons ho hck
      simp only [List.getD_cons_succ, List.getD_cons_zero]
      rw [get_build _ this]

theorem concatGet_take {ax : ℕ} : ∀ (ts : List (Tensor V)) (i : ℕ) (t : Tensor V) (idx : List ℕ),
    ts[i]? = some t → ax < idx.length → idx.getD ax 0 < t.shape.getD ax 0 →
    concatGet ax ts (idx.set ax (idx.getD ax 0 + ((ts.take i).map fun u => u.shape.getD ax 0).sum)) = t.get idx
  | [], i, t, idx, h, _, _ => by simp at h
  | u :: us, 0, t, idx, h, hl, hlt => by
    simp only [List.getElem?_cons_zero, Option.some.injEq] at h
    subst h
    simp only [List.take_zero, List.map_nil, List.sum_nil, Nat.add_zero]
    rw [set_getD_self, concatGet, if_pos hlt]
  | u :: us, i + 1, t, idx, h, hl, hlt => by
    rw [List.getElem?_cons_succ] at h
    rw [List.take_succ_cons, List.map_cons, List.sum_cons, concatGet, getD_set_eq hl, if_neg (by omega), List.set_set]
    rw [← concatGet_take us i t idx h hl hlt]
    congr 2
    omega

/-- Split takes a concatenation apart. -/
theorem splitOut_concat {ts : List (Tensor V)} {axis : ℤ} {y t : Tensor V} {sizes : List ℤ} {i ax : ℕ}
    (h : concat ts axis = some y) (hn : normAxis y.shape.length axis = some ax)
    (hs : sizes = ts.map fun u => (u.shape.getD ax 0 : ℤ)) (hi : ts[i]? = some t) :
    splitOut y axis sizes i = some t := by
  obtain ⟨t0, us, ax', rfl, hn', hall, rfl⟩ := concat_some.1 h
  simp only [build_shape, List.length_set] at hn
  rw [hn'] at hn
  cases hn
  have hax := normAxis_lt hn'
  have hsum : ∀ l : List (Tensor V), (l.map fun u => (u.shape.getD ax 0 : ℤ)).sum =
      ((l.map fun u => u.shape.getD ax 0).sum : ℕ) := by
    intro l
    induction l with
    | nil => rfl
    | cons u l ih => simp only [List.map_cons, List.sum_cons, ih, Nat.cast_add]
  have hlt : i < (t0 :: us).length := by
    by_contra hc
    rw [List.getElem?_eq_none (by omega)] at hi
    cases hi
  have hn'' : normAxis (build (t0.shape.set ax ((t0 :: us).map fun u => u.shape.getD ax 0).sum)
      (concatGet ax (t0 :: us))).shape.length axis = some ax := by
    rw [build_shape, List.length_set]
    exact hn'
  unfold splitOut
  rw [hn'', Option.bind_some, if_pos]
  · congr 1
    have ht : t ∈ t0 :: us := List.mem_of_getElem? hi
    have hts := hall t ht
    have hd : (sizes.getD i 0).toNat = t.shape.getD ax 0 := by
      rw [hs, List.getD_eq_getElem?_getD, List.getElem?_map, hi]
      simp
    have ho : (sizes.take i).sum.toNat = (((t0 :: us).take i).map fun u => u.shape.getD ax 0).sum := by
      rw [hs, ← List.map_take, hsum]
      simp
    unfold piece
    rw [hd, ho]
    have hshape : (t0.shape.set ax ((t0 :: us).map fun u => u.shape.getD ax 0).sum).set ax (t.shape.getD ax 0) =
        t.shape := by
      rw [List.set_set]
      have := congrArg (fun l : List ℕ => l.set ax (t.shape.getD ax 0)) hts
      simp only [List.set_set] at this
      rw [← this]
      exact set_getD_self _ _
    rw [build_shape, hshape]
    conv_rhs => rw [← build_get t]
    refine build_congr fun idx hidx => ?_
    have hlen : ax < idx.length := by
      rw [(inBounds_getD.1 hidx).1, set_eq_length hts]
      exact hax
    have hia : idx.getD ax 0 < t.shape.getD ax 0 :=
      (inBounds_getD.1 hidx).2 ax (by rw [set_eq_length hts]; exact hax)
    rw [get_build]
    · exact concatGet_take (t0 :: us) i t idx hi hlen hia
    · refine inBounds_getD.2 ⟨by rw [List.length_set, List.length_set, (inBounds_getD.1 hidx).1, set_eq_length hts], ?_⟩
      intro k hk
      rw [List.length_set] at hk
      by_cases hka : k = ax
      · subst hka
        rw [getD_set_eq hlen, getD_set_eq hk]
        have : (t0 :: us).map (fun u => u.shape.getD k 0) =
            ((t0 :: us).take i).map (fun u => u.shape.getD k 0) ++ (t.shape.getD k 0 ::
              ((t0 :: us).drop (i + 1)).map (fun u => u.shape.getD k 0)) := by
          rw [← List.map_cons (f := fun u : Tensor V => u.shape.getD k 0), ← List.map_append]
          congr 1
          rw [List.getElem?_eq_getElem hlt, Option.some.injEq] at hi
          rw [← hi, List.getElem_cons_drop, List.take_append_drop]
        rw [this, List.sum_append, List.sum_cons]
        omega
      · rw [getD_set_ne hka, getD_set_ne hka, ← set_eq_getD hts hka]
        exact (inBounds_getD.1 hidx).2 k (by rw [set_eq_length hts]; exact hk)
  · refine ⟨?_, ?_, ?_⟩
    · intro s hsm
      rw [hs] at hsm
      obtain ⟨u, -, rfl⟩ := List.mem_map.1 hsm
      exact Int.natCast_nonneg _
    · rw [hs, hsum, build_shape, getD_set_eq hax]
    · rw [hs, List.length_map]
      exact hlt

end Verif.Recompose
