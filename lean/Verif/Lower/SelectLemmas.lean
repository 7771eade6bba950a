import Verif.Lower.NonZeroLemmas

/-!
Lemmas about the models of Compress, Range, Flatten and Size.
-/

namespace Verif.Lower

section
variable {R : Type*}

/-! ### Compress -/

/-- The conditions as a list. -/
def condList (cond : Mem Bool) : List Bool := (upto (cond.shape.getD 0 0)).map fun k => cond.data [k]

theorem countTrue_spec {cond : Mem Bool} {n : ℤ} (hc : cond.shape = [n]) :
    countTrue cond = some (((condList cond).count true : ℕ) : ℤ) := by
  unfold countTrue
  rw [reduceLoop_spec _ (fun k s => s + (if cond.data [k] then 1 else 0)) 0 _ (by
    intro k acc h1 h2
    rw [mem_load (by rw [hc] at h2 ⊢; exact inShape_one ⟨h1, by simpa using h2⟩)]; rfl)]
  congr 1
  unfold condList
  generalize upto (cond.shape.getD 0 0) = L
  have : ∀ (L : List ℤ) (s : ℤ), L.foldl (fun acc k => acc + (if cond.data [k] then 1 else 0)) s =
      s + (((L.map fun k => cond.data [k]).count true : ℕ) : ℤ) := by
    intro L
    induction L with
    | nil => intro s; simp
    | cons x L ih =>
      intro s
      rw [List.foldl_cons, ih, List.map_cons, List.count_cons]
      cases cond.data [x] <;> simp
      ring
  rw [this L 0, zero_add]

theorem skipLoop_le {condSize : ℤ} : ∀ {dims : List (Option ℤ)} {rt : List ℤ} {tot : ℤ},
    List.Forall₂ (fun (s : Option ℤ) d => ∀ x, s = some x → d = x) dims rt → tot ≤ condSize →
    skipLoop condSize dims tot = true → tot * numel rt ≤ condSize
  | [], [], tot, _, ht, _ => by simpa [numel] using ht
  | none :: _, _, _, _, _, h => by simp [skipLoop] at h
  | some d :: ds, r :: rt, tot, hf, ht, h => by
    rw [skipLoop] at h
    split at h
    · cases h
    · cases hf with
      | cons h1 h2 =>
        have := skipLoop_le (tot := tot * d) h2 (by omega) h
        rw [numel_cons, h1 d rfl, ← mul_assoc]
        exact this
  | [], _ :: _, _, hf, _, _ => by cases hf
  | some _ :: _, [], _, hf, _, _ => by cases hf

theorem skipFlat_le {n : ℤ} {c : Option ℤ} (hc : ∀ x, c = some x → n = x) {dims : List (Option ℤ)} {rt : List ℤ}
    (hne : rt ≠ []) (h : List.Forall₂ (fun (s : Option ℤ) d => ∀ x, s = some x → d = x) dims rt)
    (hs : skipFlat c dims = true) : numel rt ≤ n := by
  unfold skipFlat at hs
  cases hcs : c with
  | none => rw [hcs] at hs; cases hs
  | some x =>
    rw [hcs] at hs
    rw [hc x hcs]
    cases h with
    | nil => exact absurd rfl hne
    | @cons s d ss ds h1 h2 =>
      cases s with
      | none => simp [skipLoop] at hs
      | some y =>
        simp only [skipLoop, one_mul] at hs
        split at hs
        · cases hs
        · rw [numel_cons, h1 y rfl]
          exact skipLoop_le h2 (by omega) hs

/-- Positions selected by the conditions, in order. -/
def selected {α : Type*} : List α → List Bool → List α
  | a :: L, c :: cs => if c then a :: selected L cs else selected L cs
  | _, _ => []

theorem selected_length {α : Type*} : ∀ (L : List α) (cs : List Bool), cs.length ≤ L.length →
    (selected L cs).length = cs.count true
  | [], [], _ => rfl
  | _ :: _, [], _ => rfl
  | [], _ :: _, h => by simp at h
  | a :: L, c :: cs, h => by
    have := selected_length L cs (by simpa using h)
    cases c <;> simp [selected, this]

theorem selected_snoc {α : Type*} : ∀ (L : List α) (a : α) (cs : List Bool),
    selected (L ++ [a]) cs = selected L cs ++ (if cs[L.length]? = some true then [a] else [])
  | [], a, [] => rfl
  | [], a, c :: cs => by cases c <;> cases cs <;> simp [selected]
  | x :: L, a, [] => rfl
  | x :: L, a, c :: cs => by
    have := selected_snoc L a cs
    cases c <;> simp [selected, this]

theorem selected_prefix {α : Type*} : ∀ {L M : List α}, L <+: M → ∀ (cs : List Bool), selected L cs <+: selected M cs
  | [], _, _, _ => by simp [selected]
  | x :: L, _, h, cs => by
    obtain ⟨t, rfl⟩ := h
    cases cs with
    | nil => simp [selected]
    | cons c cs =>
      have := selected_prefix (List.prefix_append L t) cs
      cases c
      · simpa [selected] using this
      · simp only [List.cons_append, selected, if_true]
        exact (List.prefix_cons_inj x).2 this

theorem condList_drop {cond : Mem Bool} {n : ℤ} (hc : cond.shape = [n]) (r : ℕ) :
    (condList cond).drop r =
      if (r : ℤ) < n then cond.data [(r : ℤ)] :: (condList cond).drop (r + 1) else [] := by
  unfold condList upto
  rw [hc, List.getD_cons_zero]
  split
  · rw [List.drop_eq_getElem_cons (by simp; omega)]
    simp
  · rw [List.drop_eq_nil_iff]; simp; omega

theorem compress_loop {cond : Mem Bool} {n : ℤ} (hc : cond.shape = [n]) (input : Mem R) (skip : Bool) {N : ℤ} :
    ∀ (L : List Idx) (o : Mem R) (w r : ℕ), (∀ i ∈ L, InShape i input.shape) → o.shape = [N] →
      (skip = true → (r : ℤ) + L.length ≤ n) → (w : ℤ) + (selected L ((condList cond).drop r)).length ≤ N →
      ∃ o' w' r', L.foldlM (fun st i => compressStep skip cond input i st) (o, (w : ℤ), (r : ℤ)) = some (o', w', r') ∧
        o'.shape = o.shape ∧ (∀ j : ℤ, j < w → o'.data [j] = o.data [j]) ∧
        ∀ (j : ℕ) (i : Idx), (selected L ((condList cond).drop r))[j]? = some i →
          o'.data [((w + j : ℕ) : ℤ)] = input.data i
  | [], o, w, r, _, _, _, _ => ⟨o, w, r, rfl, rfl, fun _ _ => rfl, fun j i h => by simp [selected] at h⟩
  | i :: L, o, w, r, hL, hs, hk, hN => by
    rw [condList_drop hc] at hN ⊢
    rw [List.foldlM_cons]
    by_cases hr : (r : ℤ) < n
    · rw [if_pos hr] at hN ⊢
      have hin : InShape [(r : ℤ)] cond.shape := by rw [hc]; exact inShape_one (by omega)
      have hcond : (skip || decide ((r : ℤ) < cond.shape.getD 0 0)) = true := by
        rw [hc, List.getD_cons_zero, decide_eq_true hr, Bool.or_true]
      cases hcv : cond.data [(r : ℤ)] with
      | true =>
        rw [hcv] at hN
        simp only [selected, if_true, List.length_cons] at hN ⊢
        push_cast at hN
        have hw : InShape [(w : ℤ)] o.shape := by rw [hs]; exact inShape_one (by omega)
        have e1 : compressStep skip cond input i (o, (w : ℤ), (r : ℤ)) =
            some (⟨o.shape, fun x => if x = [(w : ℤ)] then input.data i else o.data x⟩, (w : ℤ) + 1, (r : ℤ) + 1) := by
          unfold compressStep
          simp only [hcond, if_true]
          rw [mem_load hin, Option.bind_some, hcv]
          simp only [if_true]
          rw [mem_load (hL i (by simp)), Option.bind_some]
          have : o.store [(w : ℤ)] (input.data i) =
              some ⟨o.shape, fun x => if x = [(w : ℤ)] then input.data i else o.data x⟩ := by
            unfold Mem.store; rw [if_pos hw]
          rw [this]; rfl
        obtain ⟨o', w', r', e2, hs', h1, h2⟩ := compress_loop hc input skip (N := N) L
          ⟨o.shape, fun x => if x = [(w : ℤ)] then input.data i else o.data x⟩ (w + 1) (r + 1)
          (fun i h => hL i (by simp [h])) hs (fun h => by have := hk h; simp only [List.length_cons] at this; push_cast at this ⊢; omega)
          (by push_cast; omega)
        refine ⟨o', w', r', ?_, hs', ?_, ?_⟩
        · simp only [e1, Option.bind_eq_bind, Option.bind_some]
          push_cast at e2
          exact e2
        · intro j hj
          rw [h1 j (by push_cast; omega)]
          simp only [List.cons.injEq, and_true]
          rw [if_neg (by omega)]
        · intro j x hx
          cases j with
          | zero =>
            simp only [List.getElem?_cons_zero, Option.some.injEq] at hx
            subst hx
            rw [Nat.add_zero, h1 _ (by push_cast; omega)]
            simp
          | succ j =>
            have := h2 j x (by simpa using hx)
            rw [show w + (j + 1) = w + 1 + j by omega]
            exact this
      | false =>
        rw [hcv] at hN
        simp only [selected, Bool.false_eq_true, if_false] at hN ⊢
        have e1 : compressStep skip cond input i (o, (w : ℤ), (r : ℤ)) = some (o, (w : ℤ), (r : ℤ) + 1) := by
          unfold compressStep
          simp only [hcond, if_true]
          rw [mem_load hin, Option.bind_some, hcv]
          rfl
        obtain ⟨o', w', r', e2, hs', h1, h2⟩ := compress_loop hc input skip (N := N) L o w (r + 1)
          (fun i h => hL i (by simp [h])) hs (fun h => by have := hk h; simp only [List.length_cons] at this; push_cast at this ⊢; omega) hN
        refine ⟨o', w', r', ?_, hs', h1, h2⟩
        simp only [e1, Option.bind_eq_bind, Option.bind_some]
        push_cast at e2
        exact e2
    · rw [if_neg hr] at hN ⊢
      have hskip : skip = false := by
        cases skip with
        | false => rfl
        | true => exact absurd (hk rfl) (by simp only [List.length_cons]; push_cast; omega)
      subst hskip
      have e1 : compressStep false cond input i (o, (w : ℤ), (r : ℤ)) = some (o, (w : ℤ), (r : ℤ)) := by
        unfold compressStep
        simp only [hc, List.getD_cons_zero, decide_eq_false hr, Bool.or_false, Bool.false_eq_true, if_false]
      obtain ⟨o', w', r', e2, hs', h1, h2⟩ := compress_loop hc input false (N := N) L o w r
          (fun i h => hL i (by simp [h])) hs (fun h => by cases h) (by
            rw [condList_drop hc, if_neg hr]
            cases L <;> simpa [selected] using hN)
      refine ⟨o', w', r', ?_, hs', h1, fun j x hx => by simp [selected] at hx⟩
      simp only [e1, Option.bind_eq_bind, Option.bind_some]
      exact e2

theorem compressFlat_spec {cond : Mem Bool} {n : ℤ} (hn : 0 ≤ n) (hc : cond.shape = [n]) (input : Mem R) (skip : Bool)
    (hd : ∀ d ∈ input.shape, 0 ≤ d) (hle : n ≤ numel input.shape) (hskip : skip = true → numel input.shape ≤ n)
    (junk : Idx → R) :
    ∃ out, compressFlat skip cond input junk = some out ∧
      out.shape = [((selected (idxs input.shape) (condList cond)).length : ℤ)] ∧
      ∀ (j : ℕ) (i : Idx), (selected (idxs input.shape) (condList cond))[j]? = some i →
        out.data [(j : ℤ)] = input.data i := by
  have hlen := length_idxs hd
  have hcl : (condList cond).length = n.toNat := by unfold condList upto; rw [hc]; simp
  have hsl : (selected (idxs input.shape) (condList cond)).length = (condList cond).count true :=
    selected_length _ _ (by omega)
  unfold compressFlat
  rw [countTrue_spec hc, Option.bind_some]
  obtain ⟨o, w, r, e, hs, _, h⟩ := compress_loop hc input skip (N := ((condList cond).count true : ℕ))
    (idxs input.shape) ⟨[(((condList cond).count true : ℕ) : ℤ)], junk⟩ 0 0 (fun i hi => mem_idxs.1 hi) rfl
    (fun h => by have := hskip h; push_cast; omega) (by simp [hsl])
  refine ⟨o, ?_, ?_, ?_⟩
  · unfold iterate
    simp only [Nat.cast_zero] at e
    rw [e]; rfl
  · rw [hs, hsl]
  · intro j i hj
    have := h j i (by simpa using hj)
    simpa using this

theorem insertAt_eq (a c : Idx) (v : ℤ) (rank : ℕ) (h : rank = a.length + 1 + c.length) :
    insertAt rank a.length v (a ++ c) = a ++ [v] ++ c := by
  subst h
  unfold insertAt
  rw [range_mid]
  simp only [if_true]
  congr 1
  · congr 1
    conv_rhs => rw [← map_getD_range a]
    refine List.map_congr_left fun i hi => ?_
    have hi := List.mem_range.1 hi
    rw [if_neg (by omega), if_pos hi, getD_left _ _ hi]
  · conv_rhs => rw [← map_getD_range c]
    refine List.map_congr_left fun i hi => ?_
    rw [if_neg (by omega), if_neg (by omega), getD_right _ _ (by omega)]
    congr 1; omega

theorem eraseIdx_mid (da dc : List ℤ) (d : ℤ) : (da ++ [d] ++ dc).eraseIdx da.length = da ++ dc := by
  rw [List.append_assoc, List.eraseIdx_append_of_length_le (le_refl _)]
  simp

/-- Copying one slice. -/
theorem slice_copy {da dc : List ℤ} {d N : ℤ} {input o : Mem R} (hin : input.shape = da ++ [d] ++ dc)
    (ho : o.shape = da ++ [N] ++ dc) {im w : ℤ} (him : 0 ≤ im ∧ im < d) (hw : 0 ≤ w ∧ w < N) :
    ∃ o', iterate (input.shape.eraseIdx da.length) (fun inner o =>
        (input.load (insertAt input.shape.length da.length im inner)).bind fun v =>
          o.store (insertAt input.shape.length da.length w inner) v) o = some o' ∧ o'.shape = o.shape ∧
      (∀ a c, InShape a da → InShape c dc → o'.data (a ++ [w] ++ c) = input.data (a ++ [im] ++ c)) ∧
      ∀ a c x, InShape a da → InShape c dc → x ≠ w → o'.data (a ++ [x] ++ c) = o.data (a ++ [x] ++ c) := by
  have hlen : input.shape.length = da.length + 1 + dc.length := by rw [hin]; simp; omega
  have hacc : ∀ a c v, InShape a da → InShape c dc →
      insertAt input.shape.length da.length v (a ++ c) = a ++ [v] ++ c := by
    intro a c v ha hc
    rw [← ha.length]
    exact insertAt_eq a c v _ (by rw [hlen, ha.length, hc.length])
  have h := storeLoop_spec (R := R)
    (fun inner : Idx => (input.load (insertAt input.shape.length da.length im inner)).map fun v =>
      (insertAt input.shape.length da.length w inner, v))
    (fun inner => insertAt input.shape.length da.length w inner)
    (fun inner => input.data (insertAt input.shape.length da.length im inner)) (idxs (da ++ dc)) o (by
      intro i hi
      obtain ⟨a, c, rfl, ha, hc⟩ := inShape_split' (mem_idxs.1 hi)
      rw [hacc _ _ _ ha hc, hacc _ _ _ ha hc]
      refine ⟨?_, by rw [ho]; exact inShape_app (inShape_app ha (inShape_one hw)) hc⟩
      rw [mem_load (by rw [hin]; exact inShape_app (inShape_app ha (inShape_one him)) hc)]
      rfl)
  refine ⟨⟨o.shape, lastStore (idxs (da ++ dc)) (fun inner => insertAt input.shape.length da.length w inner)
      (fun inner => input.data (insertAt input.shape.length da.length im inner)) o.data⟩, ?_, rfl, ?_, ?_⟩
  · unfold iterate
    rw [show input.shape.eraseIdx da.length = da ++ dc by rw [hin, eraseIdx_mid]]
    rw [← h]
    congr 1
    funext o i
    dsimp only
    cases input.load (insertAt input.shape.length da.length im i) <;> rfl
  · intro a c ha hc
    refine (lastStore_unique (a := a ++ c) (mem_idxs.2 (inShape_app ha hc)) (hacc _ _ _ ha hc) ?_).trans ?_
    · intro b hb he
      obtain ⟨a', c', rfl, ha', hc'⟩ := inShape_split' (mem_idxs.1 hb)
      rw [hacc _ _ _ ha' hc'] at he
      have := (dropAt_inj (keep := true) (z := w) (c := c') (c' := c) (show a'.length = a.length by
        rw [ha.length, ha'.length])).1 (by unfold dropAt; simpa using he)
      rw [this.1, this.2]
    · rw [hacc _ _ _ ha hc]
  · intro a c x ha hc hx
    refine lastStore_none (old := o.data) ?_
    intro b hb he
    obtain ⟨a', c', rfl, ha', hc'⟩ := inShape_split' (mem_idxs.1 hb)
    rw [hacc _ _ _ ha' hc', List.append_assoc, List.append_assoc] at he
    have := (List.append_inj he (by rw [ha.length, ha'.length])).2
    simp only [List.cons_append, List.nil_append, List.cons.injEq] at this
    exact hx this.1.symm

theorem compressAxis_loop {cond : Mem Bool} {n : ℤ} (hc : cond.shape = [n]) {da dc : List ℤ} {d N : ℤ} {input : Mem R}
    (hin : input.shape = da ++ [d] ++ dc) (skip : Bool) (hskip : skip = true → d ≤ n)
    (o : Mem R) (ho : o.shape = da ++ [N] ++ dc)
    (hN : ((selected (upto d) (condList cond)).length : ℤ) ≤ N) :
    ∀ m : ℕ, (m : ℤ) ≤ d → ∃ o', (upto m).foldlM (fun st im => compressAxisStep skip cond input da.length im st) (o, 0) =
        some (o', ((selected (upto m) (condList cond)).length : ℤ)) ∧ o'.shape = o.shape ∧
      ∀ (j : ℕ) (k : ℤ), (selected (upto m) (condList cond))[j]? = some k →
        ∀ a c, InShape a da → InShape c dc → o'.data (a ++ [(j : ℤ)] ++ c) = input.data (a ++ [k] ++ c) := by
  intro m
  induction m with
  | zero => intro _; exact ⟨o, rfl, rfl, fun j k h => by simp [upto, selected] at h⟩
  | succ m ih =>
    intro hm
    push_cast at hm
    obtain ⟨o1, e1, hs1, h1⟩ := ih (by omega)
    have hup : upto ((m + 1 : ℕ) : ℤ) = upto (m : ℤ) ++ [(m : ℤ)] := by
      unfold upto; simp [List.range_succ]
    have hsel := selected_snoc (upto (m : ℤ)) (m : ℤ) (condList cond)
    rw [show (upto (m : ℤ)).length = m by unfold upto; simp, ← hup] at hsel
    have hcg : (condList cond)[m]? = if (m : ℤ) < n then some (cond.data [(m : ℤ)]) else none := by
      unfold condList upto
      rw [hc, List.getD_cons_zero]
      split
      · rw [List.getElem?_eq_getElem (by simp; omega)]; simp
      · rw [List.getElem?_eq_none]; simp; omega
    rw [hup, List.foldlM_append, e1]
    simp only [Option.bind_eq_bind, Option.bind_some, List.foldlM_cons, List.foldlM_nil]
    by_cases hr : (m : ℤ) < n
    · rw [if_pos hr] at hcg
      rw [hcg] at hsel
      have hcond : (skip || decide ((m : ℤ) < cond.shape.getD 0 0)) = true := by
        rw [hc, List.getD_cons_zero, decide_eq_true hr, Bool.or_true]
      have hin' : InShape [(m : ℤ)] cond.shape := by rw [hc]; exact inShape_one (by omega)
      cases hcv : cond.data [(m : ℤ)] with
      | false =>
        rw [hcv] at hsel
        simp only [Option.some.injEq, Bool.false_eq_true, if_false, List.append_nil] at hsel
        rw [← hup, hsel]
        refine ⟨o1, ?_, hs1, h1⟩
        unfold compressAxisStep
        simp only [hcond, if_true]
        rw [mem_load hin', Option.bind_some, hcv]
        rfl
      | true =>
        rw [hcv] at hsel
        simp only [if_true] at hsel
        rw [← hup, hsel]
        have hlt : ((selected (upto (m : ℤ)) (condList cond)).length : ℤ) < N := by
          have hle : (selected (upto ((m + 1 : ℕ) : ℤ)) (condList cond)).length ≤
              (selected (upto d) (condList cond)).length := by
            refine (selected_prefix ?_ _).length_le
            have : upto d = (List.range d.toNat).map fun k : ℕ => (k : ℤ) := rfl
            have h2 : upto ((m + 1 : ℕ) : ℤ) = (List.range (m + 1)).map fun k : ℕ => (k : ℤ) := by
              unfold upto; simp
            rw [this, h2]
            exact List.IsPrefix.map _ (by
              obtain ⟨q, hq⟩ : ∃ q, d.toNat = m + 1 + q := ⟨d.toNat - (m + 1), by omega⟩
              rw [hq, List.range_add (n := m + 1)]
              exact List.prefix_append _ _)
          rw [hsel, List.length_append] at hle
          simp only [List.length_cons, List.length_nil] at hle
          omega
        obtain ⟨o2, e2, hs2, h2, h3⟩ := slice_copy (o := o1) hin (hs1.trans ho) (im := (m : ℤ))
          (w := ((selected (upto (m : ℤ)) (condList cond)).length : ℤ)) (by omega) ⟨by omega, hlt⟩
        refine ⟨o2, ?_, hs2.trans hs1, ?_⟩
        · unfold compressAxisStep
          simp only [hcond, if_true]
          rw [mem_load hin', Option.bind_some, hcv]
          simp only [if_true]
          rw [e2]
          simp
        · intro j k hj a c ha hc'
          rw [List.getElem?_append] at hj
          split at hj
          · rename_i hlt'
            rw [h3 a c _ ha hc' (by omega)]
            exact h1 j k hj a c ha hc'
          · rename_i hge
            have hj0 : j - (selected (upto (m : ℤ)) (condList cond)).length = 0 := by
              by_contra hne
              rw [List.getElem?_eq_none (by simp; omega)] at hj
              cases hj
            rw [hj0] at hj
            simp only [List.getElem?_cons_zero, Option.some.injEq] at hj
            subst hj
            rw [show j = (selected (upto (m : ℤ)) (condList cond)).length by omega]
            exact h2 a c ha hc'
    · rw [if_neg hr] at hcg
      rw [hcg, if_neg (by simp), List.append_nil] at hsel
      rw [← hup, hsel]
      have hskip' : skip = false := by
        cases skip with
        | false => rfl
        | true => exact absurd (hskip rfl) (by omega)
      subst hskip'
      refine ⟨o1, ?_, hs1, h1⟩
      have hcond : (false || decide ((m : ℤ) < cond.shape.getD 0 0)) = false := by
        rw [hc, List.getD_cons_zero, decide_eq_false hr, Bool.or_false]
      unfold compressAxisStep
      rw [hcond, if_neg (by simp)]
      rfl

theorem compressAxis_spec {cond : Mem Bool} {n : ℤ} (hn : 0 ≤ n) (hc : cond.shape = [n]) {da dc : List ℤ} {d : ℤ}
    {input : Mem R} (hin : input.shape = da ++ [d] ++ dc) (hle : n ≤ d) (skip : Bool) (hskip : skip = true → d ≤ n)
    {axis : ℤ} (hax : axis = da.length ∨ axis = (da.length : ℤ) - input.shape.length) (junk : Idx → R) :
    ∃ out, compressAxis skip cond input axis junk = some out ∧
      out.shape = da ++ [((selected (upto d) (condList cond)).length : ℤ)] ++ dc ∧
      ∀ (j : ℕ) (k : ℤ), (selected (upto d) (condList cond))[j]? = some k →
        ∀ a c, InShape a da → InShape c dc → out.data (a ++ [(j : ℤ)] ++ c) = input.data (a ++ [k] ++ c) := by
  have hcl : (condList cond).length = n.toNat := by unfold condList upto; rw [hc]; simp
  have hsl : (selected (upto d) (condList cond)).length = (condList cond).count true :=
    selected_length _ _ (by unfold upto; simp; omega)
  have hset : input.shape.set da.length (((condList cond).count true : ℕ) : ℤ) =
      da ++ [(((condList cond).count true : ℕ) : ℤ)] ++ dc := by rw [hin, set_mid]
  have hax' : (if axis ≥ 0 then axis else axis + input.shape.length).toNat = da.length := by
    have : input.shape.length = da.length + 1 + dc.length := by rw [hin]; simp; omega
    rcases hax with rfl | rfl
    · rw [if_pos (by omega)]; simp
    · rw [if_neg (by omega)]; simp
  have hax : input.shape.getD da.length 0 = d := by rw [hin]; exact getD_mid _ _ _ _
  unfold compressAxis
  simp only [hax']
  rw [countTrue_spec hc, Option.bind_some]
  obtain ⟨o, e, hs, h⟩ := compressAxis_loop hc hin skip hskip
    ⟨input.shape.set da.length (((condList cond).count true : ℕ) : ℤ), junk⟩ hset (by rw [hsl]) d.toNat (by omega)
  rw [show ((d.toNat : ℕ) : ℤ) = d by omega] at e h
  refine ⟨o, ?_, ?_, h⟩
  · unfold reduceLoop; rw [hax, e]; rfl
  · rw [hs, hset, hsl]

/-! ### Range -/

theorem rangeLoop_spec [AddCommMonoid R] (n : ℕ) (start delta : R) (junk : Idx → R) :
    ∃ out, rangeLoop (n : ℤ) start delta junk = some out ∧ out.shape = [(n : ℤ)] ∧
      ∀ i : ℕ, i < n → out.data [(i : ℤ)] = start + i • delta := by
  have key : ∀ m : ℕ, m ≤ n → ∃ o : Mem R, (upto m).foldlM (fun (st : Mem R × R) (i : ℤ) =>
      (st.1.store [i] st.2).map fun o => (o, st.2 + delta)) (⟨[(n : ℤ)], junk⟩, start) =
        some (o, start + m • delta) ∧ o.shape = [(n : ℤ)] ∧
      ∀ i : ℕ, i < m → o.data [(i : ℤ)] = start + i • delta := by
    intro m
    induction m with
    | zero => intro _; exact ⟨⟨[(n : ℤ)], junk⟩, by simp [upto], rfl, fun i h => by omega⟩
    | succ m ih =>
      intro hm
      obtain ⟨o, e, hs, h⟩ := ih (by omega)
      have hst : o.store [(m : ℤ)] (start + m • delta) =
          some ⟨o.shape, fun x => if x = [(m : ℤ)] then start + m • delta else o.data x⟩ := by
        unfold Mem.store
        rw [if_pos (by rw [hs]; exact inShape_one (by omega))]
      refine ⟨⟨o.shape, fun x => if x = [(m : ℤ)] then start + m • delta else o.data x⟩, ?_, hs, ?_⟩
      · rw [show ((m + 1 : ℕ) : ℤ) = (m : ℤ) + 1 by push_cast; rfl, upto_succ, List.foldlM_append, e]
        simp only [Option.bind_eq_bind, Option.bind_some, List.foldlM_cons, List.foldlM_nil]
        rw [hst]
        simp only [Option.map_some, Option.bind_some, succ_nsmul, add_assoc]
        rfl
      · intro i hi
        simp only [List.cons.injEq, and_true]
        by_cases hc : i = m
        · subst hc; simp
        · rw [if_neg (by omega)]; exact h i (by omega)
  obtain ⟨o, e, hs, h⟩ := key n (le_refl _)
  refine ⟨o, ?_, hs, h⟩
  unfold rangeLoop reduceLoop
  rw [e]; rfl

theorem ceilDivS_pos {a b : ℤ} (hb : 0 < b) (i : ℤ) : i < -(Int.fdiv (-a) b) ↔ i * b < a := by
  have h := Int.fdiv_eq_ediv_of_nonneg (-a) (le_of_lt hb)
  rw [h]
  constructor
  · intro hi
    have : (-a) / b < -i := by omega
    have := (Int.ediv_lt_iff_lt_mul hb).1 this
    nlinarith
  · intro hi
    have : (-a) / b < -i := (Int.ediv_lt_iff_lt_mul hb).2 (by nlinarith)
    omega

theorem ceilDivS_neg {a b : ℤ} (hb : b < 0) (i : ℤ) : i < -(Int.fdiv (-a) b) ↔ a < i * b := by
  have h : Int.fdiv (-a) b = Int.fdiv (-(-a)) (-b) := by rw [Int.neg_fdiv_neg]
  rw [h, ceilDivS_pos (by omega)]
  constructor <;> intro _ <;> nlinarith

/-- The number of elements before the limit. -/
theorem rangeSize_spec {static : Bool} {start limit delta n : ℤ} (h : rangeSize static start limit delta = some n) :
    0 ≤ n ∧ ∀ i : ℤ, 0 ≤ i → (i < n ↔ if 0 < delta then start + i * delta < limit else limit < start + i * delta) := by
  have key : ∀ q : ℤ, ceilDivS (limit - start) delta = some q → ∀ i : ℤ,
      (i < q ↔ if 0 < delta then start + i * delta < limit else limit < start + i * delta) := by
    intro q hq i
    unfold ceilDivS at hq
    split at hq
    · cases hq
    · rename_i hd
      simp only [Option.some.injEq] at hq
      subst hq
      split
      · rename_i hp
        rw [ceilDivS_pos hp]; omega
      · rw [ceilDivS_neg (by omega)]; omega
  unfold rangeSize rangeShape at h
  cases hq : ceilDivS (limit - start) delta with
  | none => rw [hq] at h; cases static <;> simp at h
  | some q =>
    rw [hq] at h
    have hk := key q hq
    cases static with
    | true =>
      simp only [if_true, Option.map_some, Option.some.injEq] at h
      refine ⟨by omega, fun i hi => ?_⟩
      rw [← hk i]
      omega
    | false =>
      simp only [Bool.false_eq_true, if_false, Option.bind_some] at h
      split at h
      · cases h
      · simp only [Option.some.injEq] at h
        subst h
        exact ⟨by omega, fun i _ => hk i⟩

/-! ### Flatten and Size -/

theorem foldl_numel (L : List ℤ) (z : ℤ) : L.foldl (· * ·) z = z * numel L := by
  induction L generalizing z with
  | nil => simp [numel]
  | cons x L ih => rw [List.foldl_cons, ih, numel_cons, mul_assoc]

theorem flattenIndex_eq : ∀ (dims : List ℤ) (idx : Idx), idx.length = dims.length →
    flattenIndex dims idx = lin dims idx := by
  have key : ∀ (dims : List ℤ) (idx : Idx) (off : ℕ) (D I : List ℤ), idx.length = dims.length →
      (∀ i, D.getD (off + i) 0 = dims.getD i 0) → (∀ i, I.getD (off + i) 0 = idx.getD i 0) →
      ((List.range' off dims.length).reverse.foldl (fun (st : ℤ × ℤ) (i : ℕ) =>
        (st.1 + I.getD i 0 * st.2, D.getD i 0 * st.2)) (0, 1)) = (lin dims idx, numel dims) := by
    intro dims
    induction dims with
    | nil => intro idx off D I _ _ _; simp [lin, numel]
    | cons d ds ih =>
      intro idx off D I hl hD hI
      cases idx with
      | nil => simp at hl
      | cons x xs =>
        have := ih xs (off + 1) D I (by simpa using hl)
          (fun i => by rw [show off + 1 + i = off + (i + 1) by omega, hD]; rfl)
          (fun i => by rw [show off + 1 + i = off + (i + 1) by omega, hI]; rfl)
        rw [List.length_cons, List.range'_succ, List.reverse_cons, List.foldl_append, this]
        have h0 := hD 0
        have h1 := hI 0
        rw [Nat.add_zero] at h0 h1
        simp only [List.foldl_cons, List.foldl_nil, h0, h1, List.getD_cons_zero, lin, numel_cons]
        congr 1
        ring
  intro dims idx hl
  unfold flattenIndex
  have := key dims idx 0 dims idx hl (fun i => by rw [Nat.zero_add]) (fun i => by rw [Nat.zero_add])
  rw [List.range_eq_range', this]

theorem flatten_spec {input : Mem R} {da dc : List ℤ} (hin : input.shape = da ++ dc) {axis : ℤ}
    (hax : axis = da.length ∨ (axis < 0 ∧ axis = (da.length : ℤ) - input.shape.length)) (junk : Idx → R) :
    ∃ out, flatten input axis junk = some out ∧ out.shape = [numel da, numel dc] ∧
      ∀ a c, InShape a da → InShape c dc → out.data [lin da a, lin dc c] = input.data (a ++ c) := by
  have hax' : (if axis < 0 then input.shape.length + axis else axis).toNat = da.length := by
    rcases hax with rfl | ⟨h, rfl⟩
    · rw [if_neg (by omega)]; simp
    · rw [if_pos h]; omega
  have ht : input.shape.take da.length = da := by rw [hin]; simp
  have hd : input.shape.drop da.length = dc := by rw [hin]; simp
  unfold flatten
  simp only [hax', ht, hd]
  have hs : flattenDims input.shape da.length = [numel da, numel dc] := by
    unfold flattenDims
    rw [ht, hd, foldl_numel, foldl_numel, one_mul, one_mul]
  rw [hs]
  have h := storeLoop_spec (R := R)
    (fun i : Idx => (input.load i).map fun v =>
      ([flattenIndex da (i.take da.length), flattenIndex dc (i.drop da.length)], v))
    (fun i => [lin da (i.take da.length), lin dc (i.drop da.length)])
    (fun i => input.data i) (idxs input.shape) ⟨[numel da, numel dc], junk⟩ (by
      intro i hi
      rw [mem_idxs, hin] at hi
      obtain ⟨a, c, rfl, ha, hc⟩ := inShape_split' hi
      have h1 : (a ++ c).take da.length = a := by rw [← ha.length]; simp
      have h2 : (a ++ c).drop da.length = c := by rw [← ha.length]; simp
      rw [h1, h2, flattenIndex_eq _ _ ha.length, flattenIndex_eq _ _ hc.length,
        mem_load (by rw [hin]; exact inShape_app ha hc)]
      exact ⟨rfl, inShape_app (a := [lin da a]) (da := [numel da]) (inShape_one (lin_bounds ha)) (inShape_one (lin_bounds hc))⟩)
  refine ⟨⟨[numel da, numel dc], lastStore (idxs input.shape) (fun i => [lin da (i.take da.length), lin dc (i.drop da.length)])
    (fun i => input.data i) junk⟩, ?_, rfl, ?_⟩
  · unfold iterate
    rw [← h]
    congr 1
    funext o i
    dsimp only
    cases input.load i <;> rfl
  · intro a c ha hc
    have h1 : (a ++ c).take da.length = a := by rw [← ha.length]; simp
    have h2 : (a ++ c).drop da.length = c := by rw [← ha.length]; simp
    refine lastStore_unique (a := a ++ c) (mem_idxs.2 (by rw [hin]; exact inShape_app ha hc)) (by rw [h1, h2]) ?_
    intro b hb he
    rw [mem_idxs, hin] at hb
    obtain ⟨a', c', rfl, ha', hc'⟩ := inShape_split' hb
    have h1' : (a' ++ c').take da.length = a' := by rw [← ha'.length]; simp
    have h2' : (a' ++ c').drop da.length = c' := by rw [← ha'.length]; simp
    rw [h1', h2'] at he
    simp only [List.cons.injEq, and_true] at he
    rw [← unlin_lin ha', ← unlin_lin hc', he.1, he.2, unlin_lin ha, unlin_lin hc]

theorem sizeOf_spec {static : List (Option ℤ)} {dims : List ℤ}
    (h : List.Forall₂ (fun (s : Option ℤ) d => ∀ x, s = some x → d = x) static dims) :
    sizeOf static dims = numel dims := by
  unfold sizeOf
  have h2 : ∀ {static : List (Option ℤ)} {dims : List ℤ},
      List.Forall₂ (fun (s : Option ℤ) d => ∀ x, s = some x → d = x) static dims → ∀ z w : ℤ,
      (static.zip dims).foldl sizeRest (z * static.foldl sizeKnown w) =
        z * w * numel dims := by
    intro static dims h
    induction h with
    | nil => intro z w; simp [numel]
    | @cons s d ss ds hs _ ih =>
      intro z w
      cases s with
      | none =>
        simp only [List.zip_cons_cons, List.foldl_cons, sizeRest, sizeKnown]
        rw [mul_right_comm, ih, numel_cons]
        ring
      | some x =>
        simp only [List.zip_cons_cons, List.foldl_cons, sizeRest, sizeKnown]
        rw [ih, numel_cons, hs x rfl]
        ring
  have := h2 h 1 1
  simpa using this

/-! ### NonZero: the rows -/

theorem sorted_heads : ∀ (d : ℤ) (ds : List ℤ), ((idxs (d :: ds)).map fun i => i.getD 0 0).Pairwise (· ≤ ·) := by
  intro d ds
  rw [idxs]
  have key : ∀ L : List ℤ, L.Pairwise (· ≤ ·) →
      ((L.flatMap fun x => (idxs ds).map (x :: ·)).map fun i => i.getD 0 0).Pairwise (· ≤ ·) := by
    intro L hL
    induction L with
    | nil => simp
    | cons x L ih =>
      rw [List.flatMap_cons, List.map_append, List.pairwise_append]
      rw [List.pairwise_cons] at hL
      refine ⟨?_, ih hL.2, ?_⟩
      · rw [List.map_map]
        have : ((fun i : Idx => i.getD 0 0) ∘ fun x_1 : List ℤ => x :: x_1) = fun _ => x := by funext i; rfl
        rw [this]
        rw [List.pairwise_map]
        exact List.pairwise_of_forall (fun _ _ => le_refl _)
      · intro a ha b hb
        simp only [List.mem_map, List.mem_flatMap] at ha hb
        obtain ⟨_, ⟨i, _, rfl⟩, rfl⟩ := ha
        obtain ⟨_, ⟨y, hy, i', _, rfl⟩, rfl⟩ := hb
        exact hL.1 y hy
  refine key _ ?_
  unfold upto
  rw [List.pairwise_map]
  exact (List.pairwise_lt_range).imp (fun h => by omega)

/-- The first row of NonZero. -/
theorem row_zero (isZero : R → Bool) (X : Mem R) {d : ℤ} {ds : List ℤ} (h : X.shape = d :: ds) :
    repeated (nzCount isZero X 0) d = (nzIdx isZero X).map fun i => i.getD 0 0 := by
  have hp := perm_repeated isZero X (a := 0) (d := d) (by rw [h]; rfl)
  have hs : ((nzIdx isZero X).map fun i => i.getD 0 0).Pairwise (· ≤ ·) := by
    unfold nzIdx
    have := sorted_heads d ds
    rw [← h] at this
    exact this.sublist (List.filter_sublist.map _)
  exact (hp.eq_of_pairwise (fun a b _ _ h1 h2 => le_antisymm h1 h2) hs (sorted_repeated _ _)).symm

end

end Verif.Lower
