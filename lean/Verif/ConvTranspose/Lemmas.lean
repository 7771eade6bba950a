import Verif.ConvTranspose.WeightLemmas

/-! # The decomposition of ConvTranspose computes ConvTranspose -/

namespace Verif.ConvTranspose

open Verif.Rewrite

variable {V : Type} [Inhabited V] {A : Alg V}

/-! ### Axes -/

/-- The axis of the pattern agrees with that of the definition. -/
structure Rel (a : Axis) (m : MAxis) : Prop where
  inp : m.inp = a.inp
  k : m.k = a.k
  s : m.s = a.s
  d : m.d = a.d
  top : m.padTop = a.padB
  kpos : 0 < a.k
  spos : 0 < a.s
  dpos : 0 < a.d
  opos : 0 < a.out
  out : (a.out : ℤ) = a.s * ((a.inp : ℤ) - 1) + m.op + (((a.k : ℤ) - 1) * a.d + 1) - a.padB - m.padBottom

theorem axis_rel {ap : String} {inp k s d op pb pe : ℕ} {os : Option ℕ} {x : Axis}
    (hap : ap ∈ ["NOTSET", "VALID", "SAME_UPPER", "SAME_LOWER"])
    (h : axisOf ap inp k s d op pb pe os = some x) (hn : ap = "NOTSET" → os.isSome → x.padB = x.padE) :
    Rel x ⟨inp, k, s, d, op, (padsOf ap inp k s d op pb pe os).1, (padsOf ap inp k s d op pb pe os).2⟩ ∧
      x.inp = inp ∧ x.k = k ∧ (ap = "NOTSET" → os = none → x.padB = pb) := by
  unfold axisOf at h
  by_cases hpos : 0 < k ∧ 0 < s ∧ 0 < d
  swap
  · rw [if_neg hpos] at h; cases h
  rw [if_pos hpos] at h
  obtain ⟨hk, hs, hd⟩ := hpos
  cases os with
  | some out =>
    simp only at h
    unfold givenExtent at h
    simp only at h
    by_cases hc : 0 ≤ fullExtent inp k s d op - out ∧ 0 < out
    swap
    · rw [if_neg hc] at h; cases h
    rw [if_pos hc] at h
    have ht : ∀ t : ℤ, 0 ≤ t → t.tdiv 2 = t / 2 := fun t h => Int.tdiv_eq_ediv_of_nonneg h
    have hp : padsOf ap inp k s d op pb pe (some out) = (x.padB, x.padE) ∧ x.inp = inp ∧ x.k = k ∧ x.s = s ∧
        x.d = d ∧ x.out = out ∧ x.padB + x.padE = fullExtent inp k s d op - out := by
      unfold padsOf padsFromOutput
      simp only
      have e : (s : ℤ) * ((inp : ℤ) - 1) + op + (((k : ℤ) - 1) * d + 1) - out = fullExtent inp k s d op - out := rfl
      rw [e, ht _ hc.1]
      generalize fullExtent inp k s d op - (out : ℤ) = t at *
      simp only [List.mem_cons, List.not_mem_nil, or_false] at hap
      rcases hap with rfl | rfl | rfl | rfl
      · have hb := hn rfl rfl
        rw [if_neg (by decide)] at h
        cases h
        simp only at hb
        rw [if_pos (by decide : "NOTSET" = "SAME_UPPER" ∨ "NOTSET" = "NOTSET"), if_neg (by simp only; omega)]
        simp only [Prod.mk.injEq, true_and]
        omega
      · rw [if_neg (by decide)] at h
        cases h
        rw [if_neg (by decide : ¬ ("VALID" = "SAME_UPPER" ∨ "VALID" = "NOTSET")), if_neg (by simp only; omega)]
        simp
      · rw [if_pos rfl] at h
        cases h
        rw [if_pos (by decide : "SAME_UPPER" = "SAME_UPPER" ∨ "SAME_UPPER" = "NOTSET"), if_neg (by simp only; omega)]
        simp
      · rw [if_neg (by decide)] at h
        cases h
        rw [if_neg (by decide : ¬ ("SAME_LOWER" = "SAME_UPPER" ∨ "SAME_LOWER" = "NOTSET")),
          if_neg (by simp only; omega)]
        simp
    obtain ⟨h1, h2, h3, h4, h5, h6, h7⟩ := hp
    rw [h1]
    refine ⟨⟨h2.symm, h3.symm, h4.symm, h5.symm, rfl, h3 ▸ hk, h4 ▸ hs, h5 ▸ hd, h6 ▸ hc.2, ?_⟩, h2, h3, ?_⟩
    · rw [h2, h3, h4, h5, h6]
      unfold fullExtent at h7
      simp only
      linarith
    · intro _ h; cases h
  | none =>
    simp only at h
    unfold padsOf
    simp only
    by_cases hsame : ap = "SAME_UPPER" ∨ ap = "SAME_LOWER"
    · rw [if_pos hsame] at h
      unfold givenExtent at h
      simp only at h
      by_cases hc : 0 ≤ fullExtent inp k s d op - ((inp * s : ℕ) : ℤ) ∧ 0 < inp * s
      swap
      · rw [if_neg hc] at h; cases h
      rw [if_pos hc] at h
      have hv : ap ≠ "VALID" := by rcases hsame with rfl | rfl <;> decide
      have hns : ap ≠ "NOTSET" := by rcases hsame with rfl | rfl <;> decide
      rw [if_neg hv, if_pos hsame]
      have e : (op : ℤ) + (((k : ℤ) - 1) * d + 1) - s = fullExtent inp k s d op - ((inp * s : ℕ) : ℤ) := by
        unfold fullExtent
        push_cast
        ring
      have hp : padsSame ap k s d op = (x.padB, x.padE) ∧ x.inp = inp ∧ x.k = k ∧ x.s = s ∧
          x.d = d ∧ x.out = inp * s ∧ x.padB + x.padE = fullExtent inp k s d op - ((inp * s : ℕ) : ℤ) := by
        unfold padsSame
        simp only
        rw [e, max_eq_right hc.1, Int.tdiv_eq_ediv_of_nonneg hc.1]
        rcases hsame with rfl | rfl
        · rw [if_pos rfl] at h
          cases h
          simp
        · rw [if_neg (by decide)] at h
          cases h
          rw [if_neg (by decide)]
          simp
      obtain ⟨h1, h2, h3, h4, h5, h6, h7⟩ := hp
      rw [h1]
      refine ⟨⟨h2.symm, h3.symm, h4.symm, h5.symm, rfl, h3 ▸ hk, h4 ▸ hs, h5 ▸ hd, h6 ▸ hc.2, ?_⟩, h2, h3, ?_⟩
      · rw [h2, h3, h4, h5, h6]
        unfold fullExtent at h7
        simp only
        linarith
      · intro h; exact absurd h hns
    · rw [if_neg hsame] at h
      by_cases hv : ap = "VALID"
      · rw [if_pos hv] at h ⊢
        by_cases hc : 0 < fullExtent inp k s d op - 0 - 0
        swap
        · rw [if_neg (by simpa [hv] using hc)] at h; cases h
        rw [if_pos (by simpa [hv] using hc)] at h
        cases h
        refine ⟨⟨rfl, rfl, rfl, rfl, by simp [hv], hk, hs, hd, by simp [hv]; omega, ?_⟩, rfl, rfl, ?_⟩
        · simp only [hv, if_true]
          rw [Int.toNat_of_nonneg (by omega)]
          unfold fullExtent
          ring
        · intro h; rw [hv] at h; exact absurd h (by decide)
      · rw [if_neg hv] at h
        rw [if_neg hv, if_neg hsame]
        simp only [if_neg hv] at h
        by_cases hc : 0 < fullExtent inp k s d op - pb - pe
        swap
        · rw [if_neg hc] at h; cases h
        rw [if_pos hc] at h
        cases h
        refine ⟨⟨rfl, rfl, rfl, rfl, rfl, hk, hs, hd, by simp only; omega, ?_⟩, rfl, rfl, fun _ _ => rfl⟩
        simp only
        rw [Int.toNat_of_nonneg (by omega)]
        unfold fullExtent
        ring

theorem getD_elim {o : Option (List ℕ)} {n v i : ℕ} (hi : i < n) :
    (o.getD (List.replicate n v)).getD i 0 = o.elim v (·.getD i 0) := by
  cases o with
  | none =>
    simp only [Option.getD_none, Option.elim_none]
    rw [List.getD_eq_getElem _ _ (by simpa using hi)]
    simp
  | some l => rfl

theorem axes_rel {a : Attrs} {xs ks : List ℕ} {ax : List Axis} (h : axesOf a xs ks = some ax)
    (hk : a.kernel.getD ks = ks)
    (hn : a.autoPad = "NOTSET" → a.outputShape.isSome → ∀ x ∈ ax, x.padB = x.padE) :
    List.Forall₂ Rel ax (mAxes a xs ks) ∧ xs = ax.map Axis.inp ∧ ks = ax.map Axis.k := by
  unfold axesOf at h
  simp only at h
  by_cases hc : a.autoPad ∈ ["NOTSET", "VALID", "SAME_UPPER", "SAME_LOWER"] ∧ ks.length = xs.length ∧
      (a.strides.getD (List.replicate xs.length 1)).length = xs.length ∧
      (a.dilations.getD (List.replicate xs.length 1)).length = xs.length ∧
      (a.outputPadding.getD (List.replicate xs.length 0)).length = xs.length ∧
      (a.pads.getD (List.replicate (2 * xs.length) 0)).length = 2 * xs.length ∧
      a.outputShape.all (fun o => o.length = xs.length)
  swap
  · rw [if_neg hc] at h; cases h
  rw [if_pos hc, mapM_forall₂] at h
  have hlen := h.length_eq
  simp only [List.length_range] at hlen
  have each : ∀ i (hi : i < xs.length) (hi' : i < ax.length), Rel ax[i] (mAxis a xs ks i) ∧
      ax[i].inp = xs.getD i 0 ∧ ax[i].k = ks.getD i 0 := by
    intro i hi hi'
    have h1 := h.get (i := i) (by simpa using hi) hi'
    simp only [List.get_eq_getElem, List.getElem_range] at h1
    rw [getD_elim hi, getD_elim hi, getD_elim hi, getD_elim (by omega), getD_elim (by omega), Nat.add_comm xs.length] at h1
    have h2 := axis_rel hc.1 h1 (by
      intro e1 e2
      refine hn e1 ?_ _ (List.getElem_mem hi')
      cases hos : a.outputShape with
      | none => rw [hos] at e2; cases e2
      | some _ => rfl)
    refine ⟨?_, h2.2.1, h2.2.2.1⟩
    unfold mAxis
    rw [hk]
    exact h2.1
  refine ⟨?_, ?_, ?_⟩
  · unfold mAxes
    rw [List.forall₂_map_right_iff, List.forall₂_iff_get]
    refine ⟨by simpa using hlen.symm, fun i h1 h2 => ?_⟩
    simp only [List.get_eq_getElem, List.getElem_range]
    exact (each i (by omega) h1).1
  · apply List.ext_getElem (by simpa using hlen)
    intro i h1 h2
    rw [List.getElem_map, (each i h1 (by omega)).2.1, List.getD_eq_getElem _ _ h1]
  · apply List.ext_getElem (by simpa using hc.2.1.trans hlen)
    intro i h1 h2
    rw [List.getElem_map, (each i (by omega) (by omega)).2.2, List.getD_eq_getElem _ _ h1]

/-! ### The upsampled input -/

/-- The extent of the upsampled and padded input. -/
def upExt (a : Axis) : ℕ := a.out + (a.k - 1) * a.d

/-- Every input element is stored inside of the upsampled input. -/
def Inside (a : Axis) : Prop := a.padB ≤ ((a.k : ℤ) - 1) * a.d ∧ ((a.inp : ℤ) - 1) * a.s + 1 ≤ a.out + a.padB

theorem ext_eq {ax : List Axis} {m : List MAxis} (h : List.Forall₂ Rel ax m) :
    ext (m.map upAxis) (ax.map Axis.inp) = (ax.map upExt).map fun (d : ℕ) => (d : ℤ) := by
  induction h with
  | nil => rfl
  | cons hr _ ih =>
    rename_i a m _ _ _
    unfold ext at ih ⊢
    simp only [List.map_cons, List.zipWith_cons_cons]
    rw [ih]
    congr 1
    unfold upAxis upExt
    simp only [hr.k, hr.s, hr.d, hr.top]
    have := hr.kpos
    push_cast [Nat.cast_sub (show 1 ≤ a.k from this)]
    have h2 := hr.out
    linarith

theorem tgt_inZ {ax : List Axis} {m : List MAxis} (h : List.Forall₂ Rel ax m) (hin : ∀ a ∈ ax, Inside a) :
    ∀ {i : List ℕ}, InBounds (ax.map Axis.inp) i → InZ (ax.map upExt) (tgt (m.map upAxis) i) := by
  induction h with
  | nil =>
    intro i hi
    simp at hi
    subst hi
    exact .nil
  | cons hr _ ih =>
    rename_i a m as ms _
    intro i hi
    cases i with
    | nil => simp at hi
    | cons j i =>
      rw [List.map_cons, inBounds_cons] at hi
      have hi2 := ih (fun b hb => hin b (by simp [hb])) hi.2
      unfold tgt at hi2 ⊢
      simp only [List.map_cons, List.zipWith_cons_cons]
      refine .cons ?_ hi2
      obtain ⟨h1, h2⟩ := hin a (by simp)
      unfold upAxis upExt
      simp only [hr.k, hr.s, hr.d, hr.top]
      have := hr.kpos
      push_cast [Nat.cast_sub (show 1 ≤ a.k from this)]
      have h3 : (j : ℤ) * a.s ≤ ((a.inp : ℤ) - 1) * a.s := mul_le_mul_of_nonneg_right (by omega) (by omega)
      have h4 : 0 ≤ (j : ℤ) * a.s := by positivity
      constructor <;> linarith

/-! ### The convolution -/

/-- A spatial axis of the convolution. -/
def convAx (a : Axis) : WinAx := ⟨upExt a, a.k, 1, a.d, 0, a.out⟩

theorem winAxes_conv {ax : List Axis} {m : List MAxis} (h : List.Forall₂ Rel ax m) (group : ℕ) :
    winAxes (convAttrs m group (ax.map Axis.k)) (ax.map upExt) (ax.map Axis.k) = some (ax.map convAx) := by
  have hl := h.length_eq
  unfold winAxes convAttrs
  simp only [Option.getD_some, List.length_map, List.length_replicate]
  rw [if_pos (by simp [hl]), mapM_forall₂, List.forall₂_map_right_iff, List.forall₂_iff_get]
  refine ⟨by simp, fun i h1 h2 => ?_⟩
  simp only [List.length_range] at h1
  have h3 : i < m.length := by omega
  have hr := h.get h2 h3
  simp only [List.get_eq_getElem] at hr ⊢
  simp only [List.getElem_range]
  rw [List.getD_eq_getElem _ _ (by simpa using h1), List.getD_eq_getElem _ _ (by simpa using h1),
    List.getD_eq_getElem _ _ (by simpa using h3), List.getD_eq_getElem _ _ (by simpa using h3),
    List.getD_eq_getElem _ _ (by simp; omega), List.getD_eq_getElem _ _ (by simp; omega)]
  simp only [List.getElem_map, List.getElem_replicate, hr.d]
  have ho := hr.opos
  unfold winAxis
  simp only
  rw [if_neg (by decide), if_neg (by decide), if_pos trivial, if_neg (by unfold upExt; omega)]
  simp only [Bool.false_eq_true, false_and, if_false]
  unfold convAx
  congr 2
  unfold upExt
  simp only [Nat.add_zero, Nat.div_one]
  omega

/-- The position of the upsampled input under a window. -/
def winAt : List Axis → List ℕ → List ℕ → List ℕ
  | a :: as, o :: os, k :: ks => (o + k * a.d) :: winAt as os ks
  | _, _, _ => []

theorem winPos_conv : ∀ {ax : List Axis} {o k : List ℕ}, InBounds (ax.map Axis.out) o → InBounds (ax.map Axis.k) k →
    winPos (ax.map convAx) o k = some (winAt ax o k) ∧ InBounds (ax.map upExt) (winAt ax o k)
  | [], o, k, ho, hk => by
    simp at ho hk
    subst ho hk
    exact ⟨rfl, inBounds_nil⟩
  | a :: ax, [], k, ho, _ => by simp at ho
  | a :: ax, _ :: _, [], _, hk => by simp at hk
  | a :: ax, o :: os, k :: ks, ho, hk => by
    rw [List.map_cons, inBounds_cons] at ho hk
    obtain ⟨h1, h2⟩ := winPos_conv ho.2 hk.2
    have h3 : o + k * a.d < upExt a := by
      unfold upExt
      have : k * a.d ≤ (a.k - 1) * a.d := Nat.mul_le_mul_right _ (by omega)
      omega
    rw [List.map_cons]
    unfold winPos winAt
    have h4 : o * (convAx a).s + k * (convAx a).d - (convAx a).pb = o + k * a.d := by
      show o * 1 + k * a.d - 0 = o + k * a.d
      omega
    have h5 : (convAx a).pb ≤ o * (convAx a).s + k * (convAx a).d ∧
        o * (convAx a).s + k * (convAx a).d - (convAx a).pb < (convAx a).inp := by
      rw [h4]
      exact ⟨Nat.zero_le _, h3⟩
    rw [if_pos h5, h4, h1]
    refine ⟨rfl, ?_⟩
    · rw [List.map_cons, inBounds_cons]; exact ⟨h3, h2⟩

/-- A product lands at an output element exactly when its input element is stored under the window there, at the
position that the flipped kernel has. -/
theorem lands_iff {ax : List Axis} {m : List MAxis} (h : List.Forall₂ Rel ax m) : ∀ {i k o : List ℕ},
    InBounds (ax.map Axis.inp) i → InBounds (ax.map Axis.k) k → InBounds (ax.map Axis.out) o →
    (lands ax i k o = true ↔
      tgt (m.map upAxis) i = (winAt ax o (flip (ax.map Axis.k) k)).map fun (j : ℕ) => (j : ℤ)) := by
  induction h with
  | nil =>
    intro i k o hi hk ho
    simp at hi hk ho
    subst hi hk ho
    simp [lands, tgt, winAt]
  | cons hr _ ih =>
    rename_i a m as ms _
    intro i k o hi hk ho
    cases i with
    | nil => simp at hi
    | cons i is =>
      cases k with
      | nil => simp at hk
      | cons k ks =>
        cases o with
        | nil => simp at ho
        | cons o os =>
          rw [List.map_cons, inBounds_cons] at hi hk ho
          have := ih hi.2 hk.2 ho.2
          unfold lands
          rw [Bool.and_eq_true, this, decide_eq_true_iff]
          unfold tgt flip
          simp only [List.map_cons, List.zipWith_cons_cons, winAt, List.cons.injEq]
          refine and_congr ?_ Iff.rfl
          unfold upAxis
          simp only [hr.k, hr.s, hr.d, hr.top]
          have h1 : ((a.k - 1 - k : ℕ) : ℤ) = (a.k : ℤ) - 1 - k := by omega
          push_cast [h1]
          constructor <;> intro h <;> linarith

/-! ### Sums -/

omit [Inhabited V] in
theorem sum_flip [CommRing V] (hA : RingAlg A) (cg : ℕ) (ks : List ℕ) (f : List ℕ → V) :
    sumOver A (allIndices (cg :: ks)) f =
      sumOver A (allIndices (cg :: ks)) fun ck => f (ck.getD 0 0 :: flip ks (ck.drop 1)) := by
  rw [sumOver_eq hA, sumOver_eq hA]
  have hp : ((allIndices (cg :: ks)).map fun ck => ck.getD 0 0 :: flip ks (ck.drop 1)).Perm (allIndices (cg :: ks)) := by
    have hshape : ∀ ck ∈ allIndices (cg :: ks), ∃ c k, ck = c :: k ∧ c < cg ∧ InBounds ks k := by
      intro ck hck
      rw [mem_allIndices] at hck
      match ck, hck with
      | [], h => simp at h
      | c :: k, h => rw [inBounds_cons] at h; exact ⟨c, k, rfl, h.1, h.2⟩
    have hnd : ((allIndices (cg :: ks)).map fun ck => ck.getD 0 0 :: flip ks (ck.drop 1)).Nodup := by
      refine List.Nodup.map_on ?_ (nodup_allIndices _)
      intro x hx y hy hxy
      obtain ⟨c, k, rfl, _, hk⟩ := hshape x hx
      obtain ⟨c', k', rfl, _, hk'⟩ := hshape y hy
      simp only [List.getD_cons_zero, List.drop_succ_cons, List.drop_zero, List.cons.injEq] at hxy
      rw [hxy.1, ← flip_flip hk, hxy.2, flip_flip hk']
    rw [List.perm_ext_iff_of_nodup hnd (nodup_allIndices _)]
    intro ck
    rw [List.mem_map]
    constructor
    · rintro ⟨x, hx, rfl⟩
      obtain ⟨c, k, rfl, hc, hk⟩ := hshape x hx
      rw [mem_allIndices]
      simp only [List.getD_cons_zero, List.drop_succ_cons, List.drop_zero, inBounds_cons]
      exact ⟨hc, flip_inBounds hk⟩
    · intro hck
      obtain ⟨c, k, rfl, hc, hk⟩ := hshape ck hck
      refine ⟨c :: flip ks k, ?_, ?_⟩
      · rw [mem_allIndices, inBounds_cons]
        exact ⟨hc, flip_inBounds hk⟩
      · simp only [List.getD_cons_zero, List.drop_succ_cons, List.drop_zero, flip_flip hk]
  rw [← (hp.map f).sum_eq, List.map_map]
  rfl

theorem filter_unique {α : Type} {l : List α} {p : α → Bool} {a : α} (hl : l.Nodup) (ha : a ∈ l) (hp : p a = true)
    (hu : ∀ b ∈ l, p b = true → b = a) : l.filter p = [a] := by
  rw [← List.perm_singleton, List.perm_ext_iff_of_nodup (hl.filter p) (by simp)]
  intro b
  rw [List.mem_filter, List.mem_singleton]
  constructor
  · rintro ⟨h1, h2⟩; exact hu b h1 h2
  · rintro rfl; exact ⟨ha, hp⟩

/-! ### The decomposition -/

theorem decomposed_spec [CommRing V] (hA : RingAlg A) {a : Attrs} {x w y : Tensor V} {b : Option (Tensor V)}
    (h : convTranspose A a x w b = some y) (h0 : ∀ d ∈ w.shape, 0 < d) (h63 : ∀ d ∈ w.shape, d < 2 ^ 63)
    (hn : a.autoPad = "NOTSET" → a.outputShape.isSome → ∀ ax, axesOf a (x.shape.drop 2) (w.shape.drop 2) = some ax →
      ∀ e ∈ ax, e.padB = e.padE)
    (hin : ∀ ax, axesOf a (x.shape.drop 2) (w.shape.drop 2) = some ax → ∀ e ∈ ax, Inside e) :
    decomposed A a x w b = some y := by
  unfold convTranspose at h
  split at h
  swap
  · cases h
  rename_i n c xs c' mg ks hx hw
  rw [Option.bind_eq_some_iff] at h
  obtain ⟨ax, hax, h⟩ := h
  split at h
  swap
  · cases h
  rename_i hc
  obtain ⟨hg, rfl, hdvd, hker, hb⟩ := hc
  cases h
  rw [hx, hw] at hn hin
  simp only [List.drop_succ_cons, List.drop_zero] at hn hin
  obtain ⟨hrel, hxs, hks⟩ := axes_rel hax hker (fun e1 e2 => hn e1 e2 ax hax)
  have hin := hin ax hax
  have hw0 := h0
  rw [hw] at h0 h63
  have hmg : 0 < mg := h0 mg (by simp)
  unfold decomposed
  rw [hx, hw]
  simp only [List.drop_succ_cons, List.drop_zero]
  generalize hm : mAxes a xs ks = m at hrel
  obtain ⟨xUp, hup, hups, hupg⟩ := upsample_spec (A := A) (x := x) (u := m.map upAxis) (U := ax.map upExt) hx
    (by rw [hxs, List.length_map, List.length_map, hrel.length_eq])
    (by
      intro u hu
      obtain ⟨e, he, rfl⟩ := List.mem_map.1 hu
      obtain ⟨i, hi, rfl⟩ := List.getElem_of_mem he
      have := hrel.get (i := i) (by rw [hrel.length_eq]; exact hi) hi
      simp only [List.get_eq_getElem] at this
      show 0 < m[i].s
      rw [this.s]
      exact this.spos)
    (by rw [hxs]; exact ext_eq hrel)
    (by rw [hxs]; exact fun i hi => tgt_inZ hrel hin hi)
  obtain ⟨wc, hwc, hwcs, hwcg⟩ := convWeights_spec hw hg hdvd hw0 (fun d hd => h63 d (by simp [hd]))
  rw [hup, Option.bind_some, hwc, Option.bind_some, conv_some]
  have hcg : c / a.group * a.group = c := Nat.div_mul_cancel hdvd
  refine ⟨n, c, ax.map upExt, a.group * mg, c / a.group, ks, ax.map convAx, hups, hwcs, ?_, ⟨hg, hcg.symm, Nat.dvd_mul_right _ _, rfl⟩, ?_, ?_⟩
  · rw [hks]; exact winAxes_conv hrel a.group
  · intro t ht
    rw [ht] at hb
    simpa [Nat.mul_comm] using hb
  · have hsh : (ax.map convAx).map WinAx.out = ax.map Axis.out := by
      rw [List.map_map]; rfl
    rw [hsh, Nat.mul_comm mg]
    refine build_congr fun idx hidx => ?_
    obtain ⟨n0, m0, o, rfl, hn0, hm0, ho⟩ : ∃ n0 m0 o, idx = n0 :: m0 :: o ∧ n0 < n ∧ m0 < a.group * mg ∧
        InBounds (ax.map Axis.out) o := by
      match idx, hidx with
      | [], h => simp at h
      | [_], h => simp at h
      | n0 :: m0 :: o, h =>
        rw [inBounds_cons, inBounds_cons] at h
        exact ⟨n0, m0, o, rfl, h.1, h.2.1, h.2.2⟩
    congr 1
    unfold ctDot convDot
    simp only [List.getD_cons_zero, List.getD_cons_succ, List.drop_succ_cons, List.drop_zero]
    have hgr : a.group * mg / (convAttrs m a.group ks).group = mg := Nat.mul_div_cancel_left _ hg
    rw [hgr]
    conv_rhs => rw [sum_flip hA (c / a.group) ks]
    refine sumOver_congr fun ck hck => ?_
    rw [mem_allIndices] at hck
    match ck, hck with
    | [], h => simp at h
    | ci :: k, hck =>
      rw [inBounds_cons] at hck
      simp only [List.getD_cons_zero, List.drop_succ_cons, List.drop_zero]
      have hkb : InBounds (ax.map Axis.k) k := hks ▸ hck.2
      have hfb : InBounds (ax.map Axis.k) (flip ks k) := hks ▸ flip_inBounds hck.2
      obtain ⟨hp1, hp2⟩ := winPos_conv ho hfb
      rw [hp1]
      simp only
      rw [hwcg m0 ci _ hm0 hck.1 (flip_inBounds hck.2), flip_flip hck.2, hA.mul]
      have hch : m0 / mg * (c / a.group) + ci < c := by
        have h1 : m0 / mg < a.group := (Nat.div_lt_iff_lt_mul hmg).2 hm0
        calc m0 / mg * (c / a.group) + ci < m0 / mg * (c / a.group) + c / a.group := by omega
          _ = (m0 / mg + 1) * (c / a.group) := by ring
          _ ≤ a.group * (c / a.group) := Nat.mul_le_mul_right _ h1
          _ = c := by rw [Nat.mul_comm, hcg]
      obtain ⟨g1, g2⟩ := hupg n0 _ _ hn0 hch hp2
      simp only [hA.mul]
      rw [sumOver_mul hA]
      congr 1
      have hland : ∀ i, InBounds xs i → (lands ax i k o = true ↔
          tgt (m.map upAxis) i = (winAt ax o (flip ks k)).map fun (j : ℕ) => (j : ℤ)) := by
        intro i hi
        have := lands_iff hrel (i := i) (hxs ▸ hi) hkb ho
        rwa [← hks] at this
      by_cases hex : ∃ i, InBounds xs i ∧ lands ax i k o = true
      · obtain ⟨i, hi, hl⟩ := hex
        rw [filter_unique (nodup_allIndices xs) (mem_allIndices.2 hi) hl, sumOver_eq hA]
        · rw [List.map_singleton, List.sum_singleton]
          exact (g1 i hi ((hland i hi).1 hl)).symm
        · intro j hj hjl
          have hj := mem_allIndices.1 hj
          refine tgt_inj (u := m.map upAxis) ?_ ?_ ?_ (((hland j hj).1 hjl).trans ((hland i hi).1 hl).symm)
          · intro u hu
            obtain ⟨e, he, rfl⟩ := List.mem_map.1 hu
            obtain ⟨i, hi, rfl⟩ := List.getElem_of_mem he
            have := hrel.get (i := i) (by rw [hrel.length_eq]; exact hi) hi
            simp only [List.get_eq_getElem] at this
            show 0 < m[i].s
            rw [this.s]
            exact this.spos
          · rw [hj.length, hxs, List.length_map, List.length_map, hrel.length_eq]
          · rw [hi.length, hxs, List.length_map, List.length_map, hrel.length_eq]
      · push Not at hex
        rw [List.filter_eq_nil_iff.2 fun i hi => hex i (mem_allIndices.1 hi), sumOver_eq hA]
        rw [g2 fun i hi e => hex i hi ((hland i hi).2 e), hA.zero]
        rfl

/-! ### Stores outside of the buffer -/

theorem inside_of_inZ {ax : List Axis} {m : List MAxis} (h : List.Forall₂ Rel ax m) :
    InZ (ax.map upExt) (tgt (m.map upAxis) (ax.map fun _ => 0)) →
    InZ (ax.map upExt) (tgt (m.map upAxis) (ax.map fun a => a.inp - 1)) → (∀ a ∈ ax, 0 < a.inp) →
    ∀ a ∈ ax, Inside a := by
  induction h with
  | nil => intro _ _ _ a ha; simp at ha
  | cons hr _ ih =>
    rename_i a m as ms _
    intro h1 h2 hp b hb
    unfold tgt at h1 h2
    simp only [List.map_cons, List.zipWith_cons_cons] at h1 h2
    have h1 := List.forall₂_cons.1 h1
    have h2 := List.forall₂_cons.1 h2
    rcases List.mem_cons.1 hb with rfl | hb
    · have g1 := h1.1.1
      have g2 := h2.1.2
      unfold upAxis at g1 g2
      unfold upExt at g2
      have hpos := hp b (by simp)
      have hk := hr.kpos
      simp only [hr.k, hr.s, hr.d, hr.top] at g1 g2
      push_cast [Nat.cast_sub (show 1 ≤ b.k from hk), Nat.cast_sub (show 1 ≤ b.inp from hpos)] at g1 g2
      constructor <;> linarith
    · exact ih h1.2 h2.2 (fun c hc => hp c (by simp [hc])) b hb

theorem decomposed_none [CommRing V] {a : Attrs} {x w y : Tensor V} {b : Option (Tensor V)}
    (h : convTranspose A a x w b = some y) (hx0 : ∀ d ∈ x.shape, 0 < d)
    (hn : a.autoPad = "NOTSET" → a.outputShape.isSome → ∀ ax, axesOf a (x.shape.drop 2) (w.shape.drop 2) = some ax →
      ∀ e ∈ ax, e.padB = e.padE)
    (hout : ∃ ax, axesOf a (x.shape.drop 2) (w.shape.drop 2) = some ax ∧ ∃ e ∈ ax, ¬ Inside e) :
    decomposed A a x w b = none := by
  unfold convTranspose at h
  split at h
  swap
  · cases h
  rename_i n c xs c' mg ks hx hw
  rw [Option.bind_eq_some_iff] at h
  obtain ⟨ax, hax, h⟩ := h
  split at h
  swap
  · cases h
  rename_i hc
  obtain ⟨ax', hax', e, he, hne⟩ := hout
  rw [hx, hw] at hax'
  simp only [List.drop_succ_cons, List.drop_zero] at hax'
  obtain rfl : ax = ax' := by rw [hax] at hax'; exact Option.some.inj hax'
  rw [hx, hw] at hn
  simp only [List.drop_succ_cons, List.drop_zero] at hn
  obtain ⟨hrel, hxs, hks⟩ := axes_rel hax hc.2.2.2.1 (fun e1 e2 => hn e1 e2 ax hax)
  rw [hx] at hx0
  have hpos : ∀ e ∈ ax, 0 < e.inp := fun e he => hx0 _ (by
    rw [hxs]
    exact List.mem_cons_of_mem _ (List.mem_cons_of_mem _ (List.mem_map_of_mem he)))
  unfold decomposed
  rw [hx, hw]
  simp only [List.drop_succ_cons, List.drop_zero]
  have hl : xs.length = ((mAxes a xs ks).map upAxis).length := by
    conv_lhs => rw [hxs]
    rw [List.length_map, List.length_map, hrel.length_eq]
  have hext : (ext ((mAxes a xs ks).map upAxis) xs).map Int.toNat = ax.map upExt := by
    have := ext_eq hrel
    rw [← hxs] at this
    rw [this, cast_toNat]
  have hz : ∀ f : Axis → ℕ, (∀ e ∈ ax, f e < e.inp) → InBounds xs (ax.map f) := by
    intro f hf
    rw [hxs]
    exact List.forall₂_map_left_iff.2 (List.forall₂_map_right_iff.2 (List.forall₂_same.2 hf))
  rw [show upsampleAndPad A x ((mAxes a xs ks).map upAxis) = none from ?_]
  · rfl
  by_cases h1 : InZ (ax.map upExt) (tgt ((mAxes a xs ks).map upAxis) (ax.map fun _ => 0))
  · have h2 : ¬ InZ (ax.map upExt) (tgt ((mAxes a xs ks).map upAxis) (ax.map fun a => a.inp - 1)) :=
      fun h2 => hne (inside_of_inZ hrel h1 h2 hpos e he)
    exact upsample_none hx hl (hx0 n (by simp)) (hx0 c (by simp))
      (hz (fun a => a.inp - 1) fun e he => by have := hpos e he; omega) (by rw [hext]; exact h2)
  · exact upsample_none hx hl (hx0 n (by simp)) (hx0 c (by simp)) (hz (fun _ => 0) fun e he => hpos e he)
      (by rw [hext]; exact h1)

/-! ### The inferred shape -/

theorem shapeAxis_eq {ap : String} {inp k s d op pb pe : ℕ} {os : Option ℕ} {x : Axis}
    (hap : ap ∈ ["NOTSET", "VALID", "SAME_UPPER", "SAME_LOWER"])
    (h : axisOf ap inp k s d op pb pe os = some x) : shapeAxis ap inp k s d op pb pe os = x.out := by
  unfold axisOf at h
  split at h
  swap
  · cases h
  have given : ∀ out, givenExtent ap inp k s d op out = some x → x.out = out := by
    intro out h
    unfold givenExtent at h
    simp only at h
    split at h
    · cases h
      split <;> rfl
    · cases h
  cases os with
  | some out =>
    simp only at h
    rw [given out h]
    rfl
  | none =>
    simp only at h
    unfold shapeAxis
    simp only
    simp only [List.mem_cons, List.not_mem_nil, or_false] at hap
    rcases hap with rfl | rfl | rfl | rfl
    · rw [if_neg (by decide)] at h
      simp only [String.reduceEq, if_false] at h
      split at h
      · rename_i hc
        cases h
        unfold fullExtent at *
        simp only [String.reduceEq, true_or, if_true]
        rw [Int.toNat_of_nonneg (by omega)]
        ring
      · cases h
    · rw [if_neg (by decide)] at h
      simp only [if_true] at h
      split at h
      · rename_i hc
        cases h
        unfold fullExtent at *
        simp only [String.reduceEq, or_true, if_true, if_false]
        rw [Int.toNat_of_nonneg (by omega)]
        ring
      · cases h
    · rw [if_pos (by decide)] at h
      rw [given _ h, if_neg (by decide)]
      push_cast
      rfl
    · rw [if_pos (by decide)] at h
      rw [given _ h, if_neg (by decide)]
      push_cast
      rfl

theorem inferred_eq {a : Attrs} {x w y : Tensor V} {b : Option (Tensor V)} (h : convTranspose A a x w b = some y) :
    inferredShape a x.shape w.shape = y.shape.map fun (d : ℕ) => (d : ℤ) := by
  unfold convTranspose at h
  split at h
  swap
  · cases h
  rename_i n c xs c' mg ks hx hw
  rw [Option.bind_eq_some_iff] at h
  obtain ⟨ax, hax, h⟩ := h
  split at h
  swap
  · cases h
  rename_i hc
  cases h
  unfold axesOf at hax
  simp only at hax
  split at hax
  swap
  · cases hax
  rename_i hcc
  rw [mapM_forall₂] at hax
  have hlen := hax.length_eq
  simp only [List.length_range] at hlen
  unfold inferredShape
  rw [hx, hw]
  simp only [List.getD_cons_zero, List.getD_cons_succ, List.drop_succ_cons, List.drop_zero, build_shape, List.map_cons,
    hc.2.2.2.1]
  refine List.cons_eq_cons.2 ⟨rfl, List.cons_eq_cons.2 ⟨by push_cast; rfl, ?_⟩⟩
  apply List.ext_getElem (by simpa using hlen)
  intro i h1 h2
  simp only [List.length_map, List.length_range] at h1 h2
  have g := hax.get (i := i) (by simpa using h1) h2
  simp only [List.get_eq_getElem, List.getElem_range] at g
  rw [getD_elim h1, getD_elim h1, getD_elim h1, getD_elim (by omega), getD_elim (by omega), Nat.add_comm xs.length] at g
  simp only [List.getElem_map, List.getElem_range]
  exact shapeAxis_eq hcc.1 g

end Verif.ConvTranspose
