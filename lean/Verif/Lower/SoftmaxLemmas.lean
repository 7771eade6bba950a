import Verif.Lower.SoftmaxModel
import Verif.Lower.SoftmaxSpec
import Verif.Lower.NdLemmas
import Verif.Lower.ConvLemmas
import Verif.Lower.SelectLemmas

/-!
Lemmas for Softmax and the normalisations.
-/

namespace Verif.Lower

/-- The elements `S` were overwritten with `val`, all others are unchanged. -/
def MWrote {R : Type*} (val : Idx → R) (S : Idx → Prop) (o o' : Mem R) : Prop :=
  o'.shape = o.shape ∧ (∀ y, S y → o'.data y = val y) ∧ ∀ y, ¬ S y → o'.data y = o.data y

theorem MWrote.list {R α : Type*} {val : Idx → R} {sh : List ℤ} {S : α → Idx → Prop} {f : Mem R → α → Option (Mem R)} :
    ∀ (L : List α) (o : Mem R), o.shape = sh →
      (∀ a ∈ L, ∀ o : Mem R, o.shape = sh → ∃ o', f o a = some o' ∧ MWrote val (S a) o o') →
      ∃ o', L.foldlM f o = some o' ∧ MWrote val (fun y => ∃ a ∈ L, S a y) o o'
  | [], o, _, _ => ⟨o, rfl, rfl, fun y h => by obtain ⟨_, h, _⟩ := h; simp at h, fun _ _ => rfl⟩
  | a :: L, o, hs, h => by
    obtain ⟨o1, e1, w1⟩ := h a (by simp) o hs
    obtain ⟨o2, e2, w2⟩ := MWrote.list L o1 (by rw [w1.1, hs]) fun b hb => h b (by simp [hb])
    refine ⟨o2, by rw [List.foldlM_cons, e1]; exact e2, by rw [w2.1, w1.1], ?_, ?_⟩
    · rintro y ⟨b, hb, hy⟩
      by_cases hL : ∃ a ∈ L, S a y
      · exact w2.2.1 y hL
      · rw [w2.2.2 y hL]
        rcases List.mem_cons.1 hb with rfl | hb
        · exact w1.2.1 y hy
        · exact absurd ⟨b, hb, hy⟩ hL
    · intro y hy
      rw [w2.2.2 y (fun ⟨b, hb, h⟩ => hy ⟨b, by simp [hb], h⟩),
        w1.2.2 y (fun h => hy ⟨a, by simp, h⟩)]

theorem MWrote.store {R : Type*} (val : Idx → R) {o : Mem R} {p : Idx} (hp : InShape p o.shape) :
    ∃ o', o.store p (val p) = some o' ∧ MWrote val (fun y => y = p) o o' := by
  unfold Mem.store
  rw [if_pos hp]
  exact ⟨_, rfl, rfl, fun y hy => by simp only; rw [if_pos hy, hy], fun y hy => by simp only; rw [if_neg hy]⟩

theorem expE_nonneg (x : WithBot ℝ) : 0 ≤ expE x := by
  cases x with
  | bot => exact le_refl _
  | coe x => exact (Real.exp_pos x).le

theorem expE_pos {x : WithBot ℝ} (h : x ≠ ⊥) : 0 < expE x := by
  cases x with
  | bot => exact absurd rfl h
  | coe x => exact Real.exp_pos x

theorem expStep_eq {ex : ℝ → Option ℝ} (hex : ExpOk ex) {x : WithBot ℝ} {M : ℝ} (h : x ≤ (M : WithBot ℝ)) :
    ((subMax x (M : WithBot ℝ)).bind fun d => expBot ex d) = some (expE x / Real.exp M) := by
  cases x with
  | bot => exact congrArg some (by show (0 : ℝ) = 0 / Real.exp M; simp)
  | coe x =>
    have hx : x ≤ M := WithBot.coe_le_coe.1 h
    show ex (x - M) = some (Real.exp x / Real.exp M)
    rw [hex _ (by linarith), Real.exp_sub]

theorem foldl_max_ge {α : Type*} (f : α → WithBot ℝ) : ∀ (L : List α) (m : WithBot ℝ),
    m ≤ L.foldl (fun m k => max m (f k)) m ∧ ∀ k ∈ L, f k ≤ L.foldl (fun m k => max m (f k)) m
  | [], m => by simp
  | a :: L, m => by
    have ih := foldl_max_ge f L (max m (f a))
    rw [List.foldl_cons]
    refine ⟨le_trans (le_max_left _ _) ih.1, fun k hk => ?_⟩
    rcases List.mem_cons.1 hk with rfl | hk
    · exact le_trans (le_max_right _ _) ih.1
    · exact ih.2 k hk

theorem smExp_loop {X : Mem (WithBot ℝ)} {ex : ℝ → Option ℝ} (hex : ExpOk ex) {M : ℝ} (pos : Idx → Idx) :
    ∀ (L : List Idx) (s : ℝ) (o : Mem ℝ), o.shape = X.shape →
      (∀ k ∈ L, InShape (pos k) X.shape ∧ X.data (pos k) ≤ (M : WithBot ℝ)) →
      ∃ o', L.foldlM (fun s k => smExpStep X ex M (pos k) s) (s, o) =
          some (s + (L.map fun k => expE (X.data (pos k)) / Real.exp M).sum, o') ∧
        MWrote (fun p => expE (X.data p) / Real.exp M) (fun y => ∃ k ∈ L, y = pos k) o o'
  | [], s, o, _, _ => ⟨o, by simp, rfl, by simp, fun _ _ => rfl⟩
  | k :: L, s, o, hs, h => by
    obtain ⟨h1, h2⟩ := h k (by simp)
    obtain ⟨o1, e1, w1⟩ := MWrote.store (fun p => expE (X.data p) / Real.exp M) (o := o) (p := pos k) (by rw [hs]; exact h1)
    have hstep : smExpStep X ex M (pos k) (s, o) = some (s + expE (X.data (pos k)) / Real.exp M, o1) := by
      unfold smExpStep Mem.load
      rw [if_pos h1, Option.bind_some, ← Option.bind_assoc, expStep_eq hex h2, Option.bind_some]
      simp only at e1 ⊢
      rw [e1]; rfl
    obtain ⟨o2, e2, w2⟩ := smExp_loop hex (M := M) (X := X) pos L (s + expE (X.data (pos k)) / Real.exp M) o1
      (by rw [w1.1, hs]) fun b hb => h b (by simp [hb])
    refine ⟨o2, ?_, by rw [w2.1, w1.1], ?_, ?_⟩
    · rw [List.foldlM_cons, hstep]
      refine Eq.trans e2 ?_
      rw [List.map_cons, List.sum_cons, add_assoc]
    · rintro y ⟨b, hb, rfl⟩
      by_cases hL : ∃ k ∈ L, pos b = pos k
      · exact w2.2.1 _ hL
      · rw [w2.2.2 _ hL]
        rcases List.mem_cons.1 hb with rfl | hb
        · exact w1.2.1 _ rfl
        · exact absurd ⟨b, hb, rfl⟩ hL
    · intro y hy
      rw [w2.2.2 y (fun ⟨b, hb, h⟩ => hy ⟨b, by simp [hb], h⟩), w1.2.2 y (fun h => hy ⟨k, by simp, h⟩)]

theorem smDiv_loop {sum : ℝ} (hsum : sum ≠ 0) (pos : Idx → Idx) (e : Idx → ℝ) :
    ∀ (L : List Idx) (o : Mem ℝ), (L.map pos).Nodup → (∀ k ∈ L, InShape (pos k) o.shape ∧ o.data (pos k) = e (pos k)) →
      ∃ o', L.foldlM (fun o k => smDivStep sum (pos k) o) o = some o' ∧
        MWrote (fun p => e p / sum) (fun y => ∃ k ∈ L, y = pos k) o o'
  | [], o, _, _ => ⟨o, rfl, rfl, by simp, fun _ _ => rfl⟩
  | k :: L, o, hn, h => by
    rw [List.map_cons, List.nodup_cons] at hn
    obtain ⟨h1, h2⟩ := h k (by simp)
    obtain ⟨o1, e1, w1⟩ := MWrote.store (fun p => e p / sum) (o := o) (p := pos k) h1
    have hstep : smDivStep sum (pos k) o = some o1 := by
      unfold smDivStep Mem.load fdiv
      rw [if_pos h1, Option.bind_some, if_neg hsum, Option.bind_some, h2, e1]
    obtain ⟨o2, e2, w2⟩ := smDiv_loop hsum pos e L o1 hn.2 (by
      intro b hb
      rw [w1.1, w1.2.2 _ (fun hc => hn.1 (hc ▸ List.mem_map_of_mem hb))]
      exact h b (by simp [hb]))
    refine ⟨o2, by rw [List.foldlM_cons, hstep]; exact e2, by rw [w2.1, w1.1], ?_, ?_⟩
    · rintro y ⟨b, hb, rfl⟩
      by_cases hL : ∃ k ∈ L, pos b = pos k
      · exact w2.2.1 _ hL
      · rw [w2.2.2 _ hL]
        rcases List.mem_cons.1 hb with rfl | hb
        · exact w1.2.1 _ rfl
        · exact absurd ⟨b, hb, rfl⟩ hL
    · intro y hy
      rw [w2.2.2 y (fun ⟨b, hb, h⟩ => hy ⟨b, by simp [hb], h⟩), w1.2.2 y (fun h => hy ⟨k, by simp, h⟩)]

/-- One group of Softmax. -/
theorem smInner_spec {X : Mem (WithBot ℝ)} {ex : ℝ → Option ℝ} (hex : ExpOk ex) {inner : List ℤ} {pos : Idx → Idx} (o : Mem ℝ)
    (hs : o.shape = X.shape) (hn : ((idxs inner).map pos).Nodup) (hin : ∀ k ∈ idxs inner, InShape (pos k) X.shape)
    (hfin : ∀ k ∈ idxs inner, ∃ k ∈ idxs inner, X.data (pos k) ≠ ⊥) :
    ∃ o', smInner X ex inner pos o = some o' ∧
      MWrote (fun p => expE (X.data p) / (((idxs inner).map pos).map fun q => expE (X.data q)).sum)
        (fun y => y ∈ (idxs inner).map pos) o o' := by
  have hmax : smMax X inner pos = some ((idxs inner).foldl (fun m k => max m (X.data (pos k))) ⊥) := by
    unfold smMax
    refine foldlM_val _ _ _ _ fun k hk s => ?_
    unfold Mem.load
    rw [if_pos (hin k hk)]; rfl
  unfold smInner
  rw [hmax, Option.bind_some]
  by_cases hemp : idxs inner = []
  · rw [hemp]
    exact ⟨o, rfl, rfl, by simp, fun _ _ => rfl⟩
  · obtain ⟨k1, hk1⟩ := List.exists_mem_of_ne_nil _ hemp
    obtain ⟨k0, hk0, hne⟩ := hfin k1 hk1
    have hge := (foldl_max_ge (fun k => X.data (pos k)) (idxs inner) ⊥).2
    generalize hM : (idxs inner).foldl (fun m k => max m (X.data (pos k))) ⊥ = M' at hge ⊢
    cases M' with
    | bot => exact absurd (le_bot_iff.1 (hge k0 hk0)) hne
    | coe M =>
      obtain ⟨o1, e1, w1⟩ := smExp_loop hex (M := M) (X := X) pos (idxs inner) 0 o hs fun k hk => ⟨hin k hk, hge k hk⟩
      rw [e1, Option.bind_some]
      simp only [zero_add]
      have hsum : ((idxs inner).map fun k => expE (X.data (pos k)) / Real.exp M).sum =
          (((idxs inner).map pos).map fun q => expE (X.data q)).sum / Real.exp M := by
        rw [List.map_map]
        generalize idxs inner = L
        induction L with
        | nil => simp
        | cons a L ih => simp only [List.map_cons, List.sum_cons, ih, Function.comp]; ring
      have hpos : 0 < (((idxs inner).map pos).map fun q => expE (X.data q)).sum := by
        have h0 : expE (X.data (pos k0)) ≤ (((idxs inner).map pos).map fun q => expE (X.data q)).sum := by
          refine List.single_le_sum ?_ _ (List.mem_map_of_mem (List.mem_map_of_mem hk0))
          intro x hx
          obtain ⟨q, _, rfl⟩ := List.mem_map.1 hx
          exact expE_nonneg _
        exact lt_of_lt_of_le (expE_pos hne) h0
      have hM0 := Real.exp_pos M
      obtain ⟨o2, e2, w2⟩ := smDiv_loop (sum := ((idxs inner).map fun k => expE (X.data (pos k)) / Real.exp M).sum)
        (by rw [hsum]; positivity) pos (fun p => expE (X.data p) / Real.exp M) (idxs inner) o1 hn
        (fun k hk => ⟨by rw [w1.1, hs]; exact hin k hk, w1.2.1 _ ⟨k, hk, rfl⟩⟩)
      refine ⟨o2, e2, by rw [w2.1, w1.1], ?_, ?_⟩
      · intro y hy
        obtain ⟨k, hk, rfl⟩ := List.mem_map.1 hy
        rw [w2.2.1 _ ⟨k, hk, rfl⟩, hsum]
        field_simp
      · intro y hy
        have : ¬ ∃ k ∈ idxs inner, y = pos k := fun ⟨k, hk, e⟩ => hy (e ▸ List.mem_map_of_mem hk)
        rw [w2.2.2 _ this, w1.2.2 _ this]

/-- The members of a group: Softmax normalises over them. -/
theorem sum_group {X : Mem (WithBot ℝ)} {G : List Idx} {p : Idx → Bool} (hn : G.Nodup)
    (h : ∀ j, j ∈ G ↔ InShape j X.shape ∧ p j = true) :
    (G.map fun q => expE (X.data q)).sum = (((idxs X.shape).filter p).map fun q => expE (X.data q)).sum := by
  refine List.Perm.sum_eq (List.Perm.map _ ?_)
  refine (List.perm_ext_iff_of_nodup hn ((nodup_idxs _).filter _)).2 fun j => ?_
  rw [h, List.mem_filter, mem_idxs]

theorem smAxis_eq {rank : ℕ} {axis : ℤ} (h : -(rank : ℤ) ≤ axis ∧ axis < rank) :
    ∃ a : ℕ, smAxis rank axis = some a ∧ a < rank ∧ ((a : ℤ) = axis ∨ (a : ℤ) = axis + rank) := by
  unfold smAxis
  simp only
  split
  · rw [if_pos (by omega)]
    try rw [if_pos (by omega)]
    exact ⟨_, rfl, by omega, by omega⟩
  · rw [if_pos (by omega), if_pos (by omega)]
    exact ⟨_, rfl, by omega, by omega⟩

/-- Softmax from opset 13 on. -/
theorem softmax13_spec {X : Mem (WithBot ℝ)} {ex : ℝ → Option ℝ} (hex : ExpOk ex) {da dc : List ℤ} {d : ℤ}
    (hX : X.shape = da ++ [d] ++ dc) {axis : ℤ} (ha : smAxis X.shape.length axis = some da.length) (junk : Idx → ℝ)
    (hfin : ∀ i, InShape i X.shape → ∃ j, InShape j X.shape ∧ j.eraseIdx da.length = i.eraseIdx da.length ∧ X.data j ≠ ⊥) :
    ∃ out, softmax13 X ex axis junk = some out ∧ out.shape = X.shape ∧ ∀ i, InShape i X.shape →
      out.data i = expE (X.data i) /
        (((idxs X.shape).filter fun j => decide (j.eraseIdx da.length = i.eraseIdx da.length)).map fun j => expE (X.data j)).sum := by
  have hd : X.shape.getD da.length 0 = d := by rw [hX]; simp
  have he : X.shape.eraseIdx da.length = da ++ dc := by rw [hX, eraseIdx_mid]
  unfold softmax13
  rw [ha, Option.bind_some, hd, he]
  unfold iterate
  -- the members of the group of `a ++ c`
  have hmem : ∀ a c, InShape a da → InShape c dc → ∀ j,
      j ∈ (idxs [d]).map (smPos false da.length (a ++ c)) ↔ InShape j X.shape ∧ j.eraseIdx da.length = a ++ c := by
    intro a c h1 h2 j
    have hpos : ∀ x : ℤ, smPos false da.length (a ++ c) [x] = a ++ [x] ++ c := by
      intro x
      unfold smPos
      rw [if_neg (by simp), ← h1.length]
      simp
    rw [List.mem_map]
    constructor
    · rintro ⟨k, hk, rfl⟩
      obtain ⟨x, hx, rfl⟩ : ∃ x, (0 ≤ x ∧ x < d) ∧ k = [x] := by
        have := mem_idxs.1 hk
        cases this with
        | cons h h' => cases h'; exact ⟨_, h, rfl⟩
      rw [hpos]
      refine ⟨by rw [hX]; exact inShape_app (inShape_app h1 (inShape_one hx)) h2, ?_⟩
      rw [← h1.length, eraseIdx_mid]
    · rintro ⟨hj, hje⟩
      rw [hX] at hj
      obtain ⟨ab, c', rfl, hab, hc⟩ := inShape_split' hj
      obtain ⟨a', b, rfl, ha', hb⟩ := inShape_split' hab
      cases hb with
      | cons hx hnil =>
        cases hnil
        rename_i x
        rw [← ha'.length, eraseIdx_mid] at hje
        have hl : a'.length = a.length := by rw [ha'.length, h1.length]
        obtain ⟨rfl, rfl⟩ := List.append_inj hje hl
        exact ⟨[x], mem_idxs.2 (inShape_one hx), hpos x⟩
  have hinj : ∀ a c, InShape a da → InShape c dc → ((idxs [d]).map (smPos false da.length (a ++ c))).Nodup := by
    intro a c h1 h2
    refine (nodup_idxs _).map_on ?_
    intro x hx y hy hxy
    have hx' := mem_idxs.1 hx
    have hy' := mem_idxs.1 hy
    cases hx' with
    | cons hx1 hx2 =>
      cases hx2
      cases hy' with
      | cons hy1 hy2 =>
        cases hy2
        unfold smPos at hxy
        rw [if_neg (by simp), if_neg (by simp), ← h1.length] at hxy
        simpa using hxy
  obtain ⟨out, e, w⟩ := MWrote.list (sh := X.shape)
    (val := fun i => expE (X.data i) /
        (((idxs X.shape).filter fun j => decide (j.eraseIdx da.length = i.eraseIdx da.length)).map fun j => expE (X.data j)).sum)
    (S := fun (o : Idx) y => InShape y X.shape ∧ y.eraseIdx da.length = o)
    (f := fun (m : Mem ℝ) (o : Idx) => smInner X ex [d] (smPos false da.length o) m)
    (idxs (da ++ dc)) ⟨X.shape, junk⟩ rfl (by
      intro o ho m hm
      obtain ⟨a, c, rfl, h1, h2⟩ := inShape_split' (mem_idxs.1 ho)
      obtain ⟨o', e, w⟩ := smInner_spec hex (X := X) (inner := [d]) (pos := smPos false da.length (a ++ c)) m hm (hinj a c h1 h2)
        (fun k hk => ((hmem a c h1 h2 _).1 (List.mem_map_of_mem hk)).1) (by
          intro k hk
          have hk' := (hmem a c h1 h2 _).1 (List.mem_map_of_mem hk)
          obtain ⟨j, hj1, hj2, hj3⟩ := hfin _ hk'.1
          rw [hk'.2] at hj2
          obtain ⟨k', hk2, rfl⟩ := List.mem_map.1 ((hmem a c h1 h2 j).2 ⟨hj1, hj2⟩)
          exact ⟨k', hk2, hj3⟩)
      refine ⟨o', e, w.1, ?_, ?_⟩
      · intro y hy
        rw [w.2.1 y ((hmem a c h1 h2 y).2 hy)]
        refine congrArg (expE (X.data y) / ·) (sum_group (hinj a c h1 h2) fun j => ?_)
        rw [hmem a c h1 h2 j, hy.2, decide_eq_true_eq]
      · intro y hy
        exact w.2.2 y fun hc => hy ((hmem a c h1 h2 y).1 hc))
  refine ⟨out, e, w.1, fun i hi => ?_⟩
  refine w.2.1 i ⟨i.eraseIdx da.length, ?_, hi, rfl⟩
  rw [hX] at hi
  obtain ⟨ab, c', rfl, hab, hc⟩ := inShape_split' hi
  obtain ⟨a', b, rfl, ha', hb⟩ := inShape_split' hab
  cases hb with
  | cons hx hnil =>
    cases hnil
    rw [← ha'.length, eraseIdx_mid]
    exact mem_idxs.2 (inShape_app ha' hc)

/-- Softmax up to opset 11. -/
theorem softmax11_spec {X : Mem (WithBot ℝ)} {ex : ℝ → Option ℝ} (hex : ExpOk ex) {a : ℕ} (hal : a < X.shape.length)
    {axis : ℤ} (ha : smAxis X.shape.length axis = some a) (junk : Idx → ℝ)
    (hfin : ∀ i, InShape i X.shape → ∃ j, InShape j X.shape ∧ j.take a = i.take a ∧ X.data j ≠ ⊥) :
    ∃ out, softmax11 X ex axis junk = some out ∧ out.shape = X.shape ∧ ∀ i, InShape i X.shape →
      out.data i = expE (X.data i) /
        (((idxs X.shape).filter fun j => decide (j.take a = i.take a)).map fun j => expE (X.data j)).sum := by
  have hlen : (X.shape.take a).length = a := by simp; omega
  have hmem : ∀ o, InShape o (X.shape.take a) → ∀ j,
      j ∈ (idxs (X.shape.drop a)).map (smPos true a o) ↔ InShape j X.shape ∧ j.take a = o := by
    intro o ho j
    rw [List.mem_map]
    constructor
    · rintro ⟨k, hk, rfl⟩
      unfold smPos
      rw [if_pos rfl]
      refine ⟨?_, by rw [← hlen, ← ho.length]; simp⟩
      rw [← List.take_append_drop a X.shape]
      exact inShape_app ho (mem_idxs.1 hk)
    · rintro ⟨hj, hje⟩
      rw [← List.take_append_drop a X.shape] at hj
      obtain ⟨x, y, rfl, hx, hy⟩ := inShape_split' hj
      have : (x ++ y).take a = x := by rw [← hlen, ← hx.length]; simp
      rw [this] at hje
      subst hje
      refine ⟨y, mem_idxs.2 hy, ?_⟩
      unfold smPos
      rw [if_pos rfl]
  have hinj : ∀ o, ((idxs (X.shape.drop a)).map (smPos true a o)).Nodup := by
    intro o
    refine (nodup_idxs _).map_on ?_
    intro x _ y _ hxy
    unfold smPos at hxy
    simpa using hxy
  have key : ∀ (o : Idx) (m : Mem ℝ), InShape o (X.shape.take a) → m.shape = X.shape →
      ∃ o', smInner X ex (X.shape.drop a) (smPos true a o) m = some o' ∧
        MWrote (fun i => expE (X.data i) /
          (((idxs X.shape).filter fun j => decide (j.take a = i.take a)).map fun j => expE (X.data j)).sum)
          (fun y => InShape y X.shape ∧ y.take a = o) m o' := by
    intro o m ho hm
    obtain ⟨o', e, w⟩ := smInner_spec hex (X := X) (inner := X.shape.drop a) (pos := smPos true a o) m hm (hinj o)
      (fun k hk => ((hmem o ho _).1 (List.mem_map_of_mem hk)).1) (by
        intro k hk
        have hk' := (hmem o ho _).1 (List.mem_map_of_mem hk)
        obtain ⟨j, hj1, hj2, hj3⟩ := hfin _ hk'.1
        rw [hk'.2] at hj2
        obtain ⟨k', hk2, rfl⟩ := List.mem_map.1 ((hmem o ho j).2 ⟨hj1, hj2⟩)
        exact ⟨k', hk2, hj3⟩)
    refine ⟨o', e, w.1, ?_, ?_⟩
    · intro y hy
      rw [w.2.1 y ((hmem o ho y).2 hy)]
      refine congrArg (expE (X.data y) / ·) (sum_group (hinj o) fun j => ?_)
      rw [hmem o ho j, hy.2, decide_eq_true_eq]
    · intro y hy
      exact w.2.2 y fun hc => hy ((hmem o ho y).1 hc)
  have htake : ∀ i, InShape i X.shape → InShape (i.take a) (X.shape.take a) := by
    intro i hi
    rw [← List.take_append_drop a X.shape] at hi
    obtain ⟨x, y, rfl, hx, hy⟩ := inShape_split' hi
    have : (x ++ y).take a = x := by
      conv_lhs => rw [← hlen, ← hx.length]
      simp
    rw [this]; exact hx
  unfold softmax11
  rw [ha, Option.bind_some]
  by_cases h0 : a = 0
  · subst h0
    rw [if_pos rfl]
    obtain ⟨out, e, w⟩ := key [] ⟨X.shape, junk⟩ (by simp [inShape_nil]) rfl
    rw [List.drop_zero] at e
    exact ⟨out, e, w.1, fun i hi => w.2.1 i ⟨hi, by simp⟩⟩
  · rw [if_neg h0]
    unfold iterate
    obtain ⟨out, e, w⟩ := MWrote.list (sh := X.shape)
      (S := fun (o : Idx) y => InShape y X.shape ∧ y.take a = o)
      (f := fun (m : Mem ℝ) (o : Idx) => smInner X ex (X.shape.drop a) (smPos true a o) m)
      (idxs (X.shape.take a)) ⟨X.shape, junk⟩ rfl (fun o ho m hm => key o m (mem_idxs.1 ho) hm)
    exact ⟨out, e, w.1, fun i hi => w.2.1 i ⟨i.take a, mem_idxs.2 (htake i hi), hi, rfl⟩⟩

end Verif.Lower
