import Verif.Lower.ConvLemmas

/-!
Lemmas about the model of pooling.
-/

namespace Verif.Lower

section
variable {R : Type*}

/-- Positions of the input covered by a window along one dimension, in the order of the kernel. -/
def dimWindow (w : WinDim) (o : ℤ) : List ℤ :=
  ((upto w.kernel).map fun k => k * w.dil - (w.pad - o * w.stride)).filter fun x => decide (0 ≤ x ∧ x < w.input)

/-- Positions visited by the generated loop along one dimension. -/
def dimVisited (c isD : Bool) (w : WinDim) (o : ℤ) : List ℤ :=
  (upto (poolCount c isD w o)).map fun h => if isD then h * w.dil + poolStart w o else h + poolStart w o

theorem sorted_dimWindow (w : WinDim) (o : ℤ) (hd : 0 < w.dil) : (dimWindow w o).Pairwise (· < ·) := by
  unfold dimWindow
  refine List.Pairwise.filter _ ?_
  rw [List.pairwise_map]
  exact (sorted_upto _).imp fun h => by nlinarith

theorem mem_dimWindow {w : WinDim} {o x : ℤ} : x ∈ dimWindow w o ↔
    (∃ k, 0 ≤ k ∧ k < w.kernel ∧ x = o * w.stride - w.pad + k * w.dil) ∧ 0 ≤ x ∧ x < w.input := by
  unfold dimWindow
  simp only [List.mem_filter, List.mem_map, mem_upto, decide_eq_true_eq]
  constructor
  · rintro ⟨⟨k, hk, rfl⟩, h⟩
    exact ⟨⟨k, hk.1, hk.2, by ring⟩, h⟩
  · rintro ⟨⟨k, h1, h2, rfl⟩, h⟩
    exact ⟨⟨k, ⟨h1, h2⟩, by ring⟩, h⟩

theorem cdiv_one (a : ℤ) : cdiv a 1 = a := by unfold cdiv; simp

theorem poolCount_nondil (c : Bool) (w : WinDim) (o : ℤ) (hd : w.dil = 1) :
    poolCount c false w o = poolEnd w o - poolStart w o := by
  unfold poolCount poolEnd poolStart poolDimExpr
  simp only [hd, cdiv_one, Bool.false_eq_true, if_false]
  omega

/-- Without dilation the loop visits the window. -/
theorem dimVisited_nondil (c : Bool) (w : WinDim) (o : ℤ) (hd : w.dil = 1) :
    dimVisited c false w o = dimWindow w o := by
  refine sorted_ext ?_ (sorted_dimWindow w o (by omega)) fun x => ?_
  · unfold dimVisited
    rw [List.pairwise_map]
    exact (sorted_upto _).imp fun h => by simpa using h
  · rw [mem_dimWindow]
    unfold dimVisited
    rw [poolCount_nondil c w o hd]
    simp only [List.mem_map, mem_upto, Bool.false_eq_true, if_false]
    unfold poolEnd poolStart
    simp only [hd, cdiv_one]
    constructor
    · rintro ⟨h, hh, rfl⟩
      refine ⟨⟨h + max (w.pad * 1 - w.pad) (o * w.stride - w.pad) - (o * w.stride - w.pad), ?_, ?_, by ring⟩, ?_, ?_⟩ <;> omega
    · rintro ⟨⟨k, h1, h2, rfl⟩, h3, h4⟩
      exact ⟨o * w.stride - w.pad + k * 1 - max (w.pad * 1 - w.pad) (o * w.stride - w.pad), by omega, by omega⟩

/-- The start is aligned with the window of the output position. -/
def Aligned (w : WinDim) (o : ℤ) : Prop := w.pad ≤ 0 ∧ 0 ≤ o * w.stride ∧ w.pad = 0 ∨ w.dil ∣ o * w.stride

theorem poolStart_dil {w : WinDim} {o : ℤ} (hd : 0 < w.dil) (h : Aligned w o) :
    0 ≤ poolStart w o ∧ (∃ t, 0 ≤ t ∧ poolStart w o = o * w.stride - w.pad + t * w.dil) ∧
      ∀ k, 0 ≤ k → 0 ≤ o * w.stride - w.pad + k * w.dil → poolStart w o ≤ o * w.stride - w.pad + k * w.dil := by
  have hc : w.pad ≤ cdiv w.pad w.dil * w.dil := (cdiv_le hd).1 le_rfl
  have hc' : ∀ k, w.pad ≤ k * w.dil → cdiv w.pad w.dil ≤ k := fun k hk => (cdiv_le hd).2 hk
  unfold poolStart
  refine ⟨le_max_of_le_left (by omega), ?_, ?_⟩
  · rcases h with ⟨_, h0, hp⟩ | ⟨q, hq⟩
    · refine ⟨0, le_rfl, ?_⟩
      have : cdiv w.pad w.dil ≤ 0 := hc' 0 (by omega)
      have : cdiv w.pad w.dil * w.dil ≤ 0 := by nlinarith
      omega
    · rcases le_total (cdiv w.pad w.dil) q with hle | hle
      · refine ⟨0, le_rfl, ?_⟩
        have : cdiv w.pad w.dil * w.dil ≤ q * w.dil := by nlinarith
        have e : q * w.dil = w.dil * q := mul_comm _ _
        omega
      · refine ⟨cdiv w.pad w.dil - q, by omega, ?_⟩
        have : q * w.dil ≤ cdiv w.pad w.dil * w.dil := by nlinarith
        have e : q * w.dil = w.dil * q := mul_comm _ _
        have e2 : (cdiv w.pad w.dil - q) * w.dil = cdiv w.pad w.dil * w.dil - w.dil * q := by ring
        rw [e2, hq]
        omega
  · intro k hk h0
    refine max_le ?_ (by nlinarith)
    rcases h with ⟨_, h0', hp⟩ | ⟨q, hq⟩
    · have : cdiv w.pad w.dil ≤ 0 := hc' 0 (by omega)
      have : cdiv w.pad w.dil * w.dil ≤ 0 := by nlinarith
      nlinarith
    · have := hc' (q + k) (by nlinarith)
      have : cdiv w.pad w.dil * w.dil ≤ (q + k) * w.dil := by nlinarith
      nlinarith

theorem poolDimExpr_mono {c : Bool} {d a b : ℤ} (hd : 0 < d) (h : a ≤ b) :
    poolDimExpr c true d a ≤ poolDimExpr c true d b := by
  unfold poolDimExpr
  simp only [if_true]
  cases c with
  | false => simp only [Bool.false_eq_true, if_false]; exact Int.ediv_le_ediv hd (by omega)
  | true =>
    simp only [if_true]
    rw [cdiv_le hd]
    have : b + 1 ≤ cdiv (b + 1) d * d := (cdiv_le hd).1 le_rfl
    omega

theorem poolCount_dil (c : Bool) (w : WinDim) (o : ℤ) (hd : 0 < w.dil) :
    poolCount c true w o = poolDimExpr c true w.dil (poolEnd w o - poolStart w o) := by
  unfold poolCount poolEnd poolStart
  simp only
  generalize cdiv w.pad w.dil * w.dil - w.pad = s1
  generalize o * w.stride - w.pad = s2
  generalize o * w.stride + (w.kernel - 1) * w.dil + 1 - w.pad = e2
  have m : ∀ {a b}, a ≤ b → poolDimExpr c true w.dil a ≤ poolDimExpr c true w.dil b := fun h => poolDimExpr_mono hd h
  apply le_antisymm
  · rcases le_total w.input e2 with h1 | h1 <;> rcases le_total s1 s2 with h2 | h2
    · rw [min_eq_left h1, max_eq_right h2]; omega
    · rw [min_eq_left h1, max_eq_left h2]; omega
    · rw [min_eq_right h1, max_eq_right h2]; omega
    · rw [min_eq_right h1, max_eq_left h2]; omega
  · refine le_min (le_min (m ?_) (m ?_)) (le_min (m ?_) (m ?_)) <;> omega

/-- With dilation, aligned starts, and either floor mode with dilation 2 or ceil mode without
clipping at the end, the loop visits the window. -/
theorem dimVisited_dil (c : Bool) (w : WinDim) (o : ℤ) (hd : 2 ≤ w.dil) (ha : Aligned w o)
    (hf : c = false → w.dil = 2)
    (hcl : c = true → o * w.stride + (w.kernel - 1) * w.dil + 1 - w.pad ≤ w.input) :
    dimVisited c true w o = dimWindow w o := by
  have hd' : 0 < w.dil := by omega
  obtain ⟨hs0, ⟨t, ht, hst⟩, hsm⟩ := poolStart_dil hd' ha
  -- the loop stops at the end of the poolWindow
  have key : ∀ h, 0 ≤ h → (h < poolCount c true w o ↔ h * w.dil + poolStart w o < poolEnd w o) := by
    intro h hh
    rw [poolCount_dil c w o hd']
    unfold poolDimExpr
    simp only [if_true]
    cases c with
    | false =>
      have h2 := hf rfl
      simp only [Bool.false_eq_true, if_false]
      rw [h2]
      omega
    | true =>
      have h2 := hcl rfl
      simp only [if_true]
      rw [lt_cdiv hd']
      have he : poolEnd w o = o * w.stride + (w.kernel - 1) * w.dil + 1 - w.pad := min_eq_right h2
      rw [he, hst]
      constructor
      · intro hlt
        by_contra hc
        -- h + t > K - 1, hence h + t ≥ K
        have h3 : (h + t) * w.dil > (w.kernel - 1) * w.dil := by nlinarith
        have h4 : h + t > w.kernel - 1 := lt_of_mul_lt_mul_right h3 (by omega)
        have h5 : (h + t) * w.dil ≥ w.kernel * w.dil := mul_le_mul_of_nonneg_right (by omega) (by omega)
        nlinarith
      · intro hlt; linarith
  refine sorted_ext ?_ (sorted_dimWindow w o hd') fun x => ?_
  · unfold dimVisited
    rw [List.pairwise_map]
    exact (sorted_upto _).imp fun h => by simp only [if_true]; nlinarith
  · rw [mem_dimWindow]
    unfold dimVisited
    simp only [List.mem_map, mem_upto, if_true]
    constructor
    · rintro ⟨h, ⟨h0, h1⟩, rfl⟩
      rw [key h h0] at h1
      have e1 : poolEnd w o ≤ w.input := min_le_left _ _
      have e2 : poolEnd w o ≤ o * w.stride + (w.kernel - 1) * w.dil + 1 - w.pad := min_le_right _ _
      refine ⟨⟨h + t, by omega, ?_, by rw [hst]; ring⟩, by positivity, by omega⟩
      have : (h + t) * w.dil ≤ (w.kernel - 1) * w.dil := by rw [hst] at h1; nlinarith
      have := le_of_mul_le_mul_right this hd'
      omega
    · rintro ⟨⟨k, h1, h2, rfl⟩, h3, h4⟩
      have hle := hsm k h1 h3
      rw [hst] at hle
      have hkt : t ≤ k := le_of_mul_le_mul_right (by linarith : t * w.dil ≤ k * w.dil) hd'
      refine ⟨k - t, ⟨by omega, ?_⟩, by rw [hst]; ring⟩
      rw [key _ (by omega), hst]
      have : k * w.dil ≤ (w.kernel - 1) * w.dil := by nlinarith
      unfold poolEnd
      rw [lt_min_iff]
      constructor <;> nlinarith

/-! ### The whole window -/

/-- Positions covered by the window of the output position `o`, in the order of the kernel. -/
def poolWindow (ws : List WinDim) (o : Idx) : List Idx := cart (List.zipWith dimWindow ws o)

theorem cart_map_visited (c isD : Bool) : ∀ (ws : List WinDim) (o : Idx), o.length = ws.length →
    (cart (List.zipWith (fun w x => upto (poolCount c isD w x)) ws o)).map (poolPos isD ws o) =
      cart (List.zipWith (dimVisited c isD) ws o)
  | [], [], _ => rfl
  | [], _ :: _, h => by simp at h
  | _ :: _, [], h => by simp at h
  | w :: ws, x :: o, h => by
    have ih := cart_map_visited c isD ws o (by simpa using h)
    rw [List.zipWith_cons_cons, List.zipWith_cons_cons, cart, cart, ← ih, List.map_flatMap]
    unfold dimVisited
    rw [List.flatMap_map]
    congr 1
    funext a
    rw [List.map_map, List.map_map]
    rfl

theorem zipWith_congr_mem {α β γ : Type*} {f g : α → β → γ} : ∀ (L : List α) (M : List β),
    (∀ p ∈ L.zip M, f p.1 p.2 = g p.1 p.2) → List.zipWith f L M = List.zipWith g L M
  | [], _, _ => by simp
  | _ :: _, [], _ => by simp
  | a :: L, b :: M, h => by
    rw [List.zipWith_cons_cons, List.zipWith_cons_cons, h (a, b) (by simp),
      zipWith_congr_mem L M fun p hp => h p (by simp [hp])]

theorem mem_cart : ∀ {Ls : List (List ℤ)} {i : Idx}, i ∈ cart Ls ↔ List.Forall₂ (fun x L => x ∈ L) i Ls
  | [], i => by simp [cart]
  | L :: Ls, i => by
    unfold cart
    simp only [List.mem_flatMap, List.mem_map]
    constructor
    · rintro ⟨x, hx, j, hj, rfl⟩
      exact List.Forall₂.cons hx (mem_cart.1 hj)
    · intro h
      cases h with
      | cons hx hj => exact ⟨_, hx, _, mem_cart.2 hj, rfl⟩

theorem window_inShape : ∀ {ws : List WinDim} {o i : Idx}, o.length = ws.length → i ∈ poolWindow ws o →
    InShape i (ws.map WinDim.input)
  | [], [], i, _, h => by
    unfold poolWindow at h
    simp [cart] at h
    subst h; exact List.Forall₂.nil
  | [], _ :: _, _, h, _ => by simp at h
  | _ :: _, [], _, h, _ => by simp at h
  | w :: ws, x :: o, i, hl, h => by
    unfold poolWindow at h
    rw [List.zipWith_cons_cons, cart] at h
    simp only [List.mem_flatMap, List.mem_map] at h
    obtain ⟨a, ha, j, hj, rfl⟩ := h
    exact inShape_cons.2 ⟨(mem_dimWindow.1 ha).2, window_inShape (by simpa using hl) hj⟩

theorem foldlM_load (X : Mem R) (op : R → R → R) (pre : Idx) (pos : Idx → Idx) :
    ∀ (L : List Idx) (z : R), (∀ h ∈ L, InShape (pre ++ pos h) X.shape) →
    L.foldlM (fun acc h => (X.load (pre ++ pos h)).map fun v => op acc v) z =
      some ((L.map fun h => X.data (pre ++ pos h)).foldl op z) := by
  intro L z h
  rw [foldlM_val _ (fun acc h => op acc (X.data (pre ++ pos h))), List.foldl_map]
  intro a ha s
  rw [mem_load (h a ha)]
  rfl

theorem pool_spec (op : R → R → R) (ident : R) (post : R → List ℤ → R) (c : Bool) {X : Mem R} {N C : ℤ} {Is Ks ps ss ds od : List ℤ}
    (hX : X.shape = [N, C] ++ Is) (h1 : Ks.length = Is.length) (hod : od.length = Is.length) (isD : Bool)
    (hD : isD = (winDims Is Ks ps ss ds).any fun w => decide (w.dil > 1))
    (hv : ∀ o, InShape o od → ∀ p ∈ (winDims Is Ks ps ss ds).zip o, dimVisited c isD p.1 p.2 = dimWindow p.1 p.2)
    (junk : Idx → R) :
    ∃ out, pool op ident post c X Ks ps ss ds od junk = some out ∧ out.shape = [N, C] ++ od ∧
      ∀ n ch o, 0 ≤ n ∧ n < N → 0 ≤ ch ∧ ch < C → InShape o od →
        out.data ([n, ch] ++ o) =
          post (((poolWindow (winDims Is Ks ps ss ds) o).map fun x => X.data ([n, ch] ++ x)).foldl op ident)
            (List.zipWith (poolFull c isD) (winDims Is Ks ps ss ds) o) := by
  obtain ⟨hwi, hwk, hwl⟩ := winDims_maps (ps := ps) (ss := ss) (ds := ds) h1
  unfold pool
  have e3 : X.shape.drop 2 = Is := by rw [hX]; rfl
  have e4 : X.shape.take 2 = [N, C] := by rw [hX]; rfl
  simp only [e3, e4, ← hD]
  generalize hws : winDims Is Ks ps ss ds = ws at *
  have hsplit : ∀ {i : Idx}, InShape i ([N, C] ++ od) → ∃ n ch o, i = [n, ch] ++ o ∧ (0 ≤ n ∧ n < N) ∧
      (0 ≤ ch ∧ ch < C) ∧ InShape o od := by
    intro i hi
    obtain ⟨a, o, rfl, ha, ho⟩ := inShape_split' hi
    match a, ha with
    | [n, g], ha =>
      rw [inShape_cons, inShape_cons] at ha
      exact ⟨n, g, o, rfl, ha.1, ha.2.1, ho⟩
  unfold iterate
  refine ⟨⟨[N, C] ++ od, lastStore (idxs ([N, C] ++ od)) (fun i => i) (fun i =>
      post (((poolWindow ws (i.drop 2)).map fun x => X.data (i.take 2 ++ x)).foldl op ident)
        (List.zipWith (poolFull c isD) ws (i.drop 2))) junk⟩, ?_, rfl, ?_⟩
  · refine storeNest (R := R) (fun i out => _) (fun i => i) _ (idxs ([N, C] ++ od)) ⟨[N, C] ++ od, junk⟩ ?_
    intro i hi
    obtain ⟨n, ch, o, rfl, hn, hc, ho⟩ := hsplit (mem_idxs.1 hi)
    refine ⟨mem_idxs.1 hi, fun out hout => ?_⟩
    have hol : o.length = ws.length := by rw [ho.length, hod, hwl]
    have d2 : ([n, ch] ++ o).drop 2 = o := rfl
    have t2 : ([n, ch] ++ o).take 2 = [n, ch] := rfl
    rw [d2, t2]
    have hw : poolWindow ws o = (cart (List.zipWith (fun w x => upto (poolCount c isD w x)) ws o)).map (poolPos isD ws o) := by
      rw [cart_map_visited c isD ws o hol]
      unfold poolWindow
      rw [zipWith_congr_mem ws o (fun p hp => (hv o ho p hp).symm)]
    rw [foldlM_load X op [n, ch] (poolPos isD ws o), Option.bind_some, hw, List.map_map]
    · rfl
    · intro h hh
      rw [hX]
      refine inShape_app (inShape_cons.2 ⟨hn, inShape_one hc⟩) ?_
      rw [← hwi]
      exact window_inShape hol (by rw [hw]; exact List.mem_map_of_mem hh)
  · intro n ch o hn hc ho
    refine (lastStore_unique (a := [n, ch] ++ o) (mem_idxs.2 (inShape_app
      (inShape_cons.2 ⟨hn, inShape_one hc⟩) ho)) rfl ?_)
    intro i hi he
    rw [he]

/-! ### Window in terms of the attributes -/

theorem accPos_range : ∀ (ws : List WinDim) (o k : Idx), o.length = ws.length → k.length = ws.length →
    accPos ws o k = (List.range ws.length).map fun i =>
      o.getD i 0 * ((ws.map WinDim.stride).getD i 0) + k.getD i 0 * ((ws.map WinDim.dil).getD i 0) -
        ((ws.map WinDim.pad).getD i 0)
  | [], _, _, _, _ => by simp [accPos]
  | w :: ws, [], _, h, _ => by simp at h
  | w :: ws, _ :: _, [], _, h => by simp at h
  | w :: ws, x :: o, a :: k, h1, h2 => by
    rw [accPos, accPos_range ws o k (by simpa using h1) (by simpa using h2), List.length_cons, List.range_succ_eq_map,
      List.map_cons, List.map_map]
    refine List.cons_eq_cons.2 ⟨by simp; ring, rfl⟩

/-- Position of the input read for the output position `o` and the kernel position `k`:
`o * stride + k * dilation - pad` along every dimension. -/
def srcPos (ss ds ps : List ℤ) (o k : Idx) : Idx :=
  (List.range o.length).map fun i => o.getD i 0 * ss.getD i 0 + k.getD i 0 * ds.getD i 0 - ps.getD i 0

theorem accPos_src {Is Ks ps ss ds : List ℤ} {o k : Idx} (ho : o.length = Is.length) (hk : k.length = Is.length) :
    accPos (winDims Is Ks ps ss ds) o k = srcPos ss ds ps o k := by
  have hl : (winDims Is Ks ps ss ds).length = Is.length := by simp [winDims]
  rw [accPos_range _ _ _ (by rw [ho, hl]) (by rw [hk, hl]), hl]
  unfold srcPos
  rw [ho]
  refine List.map_congr_left fun i hi => ?_
  have hi := List.mem_range.1 hi
  have g : ∀ (f : WinDim → ℤ), ((winDims Is Ks ps ss ds).map f).getD i 0 =
      f ⟨Is.getD i 0, Ks.getD i 0, ps.getD i 0, ss.getD i 0, ds.getD i 0⟩ := by
    intro f
    unfold winDims
    rw [List.map_map, List.getD_eq_getElem?_getD, List.getElem?_eq_getElem (by simpa using hi)]
    simp
  rw [g, g, g]

theorem window_acc : ∀ (ws : List WinDim) (o : Idx), o.length = ws.length →
    poolWindow ws o = ((idxs (ws.map WinDim.kernel)).map (accPos ws o)).filter
      fun x => decide (InShape x (ws.map WinDim.input))
  | [], [], _ => by
    have : InShape [] [] := List.Forall₂.nil
    simp [poolWindow, cart, idxs, accPos, this]
  | [], _ :: _, h => by simp at h
  | _ :: _, [], h => by simp at h
  | w :: ws, x :: o, h => by
    have ih := window_acc ws o (by simpa using h)
    unfold poolWindow at ih ⊢
    rw [List.zipWith_cons_cons, cart, ih]
    unfold dimWindow
    rw [← filter_flatMap_cons]
    have e : ((idxs ((w :: ws).map WinDim.kernel)).map (accPos (w :: ws) (x :: o))) =
        ((upto w.kernel).map fun k => k * w.dil - (w.pad - x * w.stride)).flatMap fun a =>
          ((idxs (ws.map WinDim.kernel)).map (accPos ws o)).map (a :: ·) := by
      show List.map _ ((upto w.kernel).flatMap fun x => (idxs (ws.map WinDim.kernel)).map (x :: ·)) = _
      rw [List.map_flatMap, List.flatMap_map]
      congr 1
      funext a
      rw [List.map_map, List.map_map]
      rfl
    rw [e]
    refine List.filter_congr fun k hk => ?_
    have : ∃ a b, k = a :: b := by
      simp only [List.mem_flatMap, List.mem_map] at hk
      obtain ⟨a, _, b, _, rfl⟩ := hk
      exact ⟨a, b, rfl⟩
    obtain ⟨a, b, rfl⟩ := this
    rw [Bool.eq_iff_iff, Bool.and_eq_true, decide_eq_true_eq, decide_eq_true_eq, decide_eq_true_eq]
    exact inShape_cons.symm

theorem window_src {Is Ks ps ss ds : List ℤ} {o : Idx} (hK : Ks.length = Is.length) (ho : o.length = Is.length) :
    poolWindow (winDims Is Ks ps ss ds) o =
      ((idxs Ks).map (srcPos ss ds ps o)).filter fun x => decide (InShape x Is) := by
  obtain ⟨hwi, hwk, hwl⟩ := winDims_maps (ps := ps) (ss := ss) (ds := ds) hK
  rw [window_acc _ _ (by rw [ho, hwl]), hwi, hwk]
  congr 1
  refine List.map_congr_left fun k hk => ?_
  exact accPos_src ho (by rw [(mem_idxs.1 hk).length, hK])

/-! ### Denominators -/

theorem cdiv_eq_tdiv {a d : ℤ} (ha : 0 ≤ a) (hd : 0 < d) :
    cdiv a d = if Int.tmod a d = 0 then Int.tdiv a d else Int.tdiv a d + 1 := by
  rw [Int.tmod_eq_emod_of_nonneg ha, Int.tdiv_eq_ediv_of_nonneg ha]
  have h1 := Int.emod_add_mul_ediv a d
  have h2 := Int.emod_nonneg a (by omega : d ≠ 0)
  have h3 := Int.emod_lt_of_pos a hd
  have hc1 : ∀ k, cdiv a d ≤ k ↔ a ≤ k * d := fun k => cdiv_le hd
  split
  · next h =>
    apply le_antisymm
    · rw [hc1]; nlinarith
    · by_contra hc
      have := (hc1 (a / d - 1)).1 (by omega)
      nlinarith
  · next h =>
    apply le_antisymm
    · rw [hc1]; nlinarith
    · by_contra hc
      have := (hc1 (a / d)).1 (by omega)
      have : 0 < a % d := by omega
      nlinarith

/-- The denominator along one dimension is the number of positions visited. -/
theorem poolFull_eq {c isD : Bool} {w : WinDim} {o : ℤ} (hd : 0 < w.dil) (h1 : isD = false → w.dil = 1)
    (hne : dimVisited c isD w o ≠ []) (hv : dimVisited c isD w o = dimWindow w o) :
    poolFull c isD w o = ((dimVisited c isD w o).length : ℤ) := by
  have hlen : ((dimVisited c isD w o).length : ℤ) = poolCount c isD w o := by
    have : (dimVisited c isD w o).length = (poolCount c isD w o).toNat := by
      simp [dimVisited, upto]
    have hpos : 0 < (dimVisited c isD w o).length := List.length_pos_iff.2 hne
    omega
  have hse : 0 ≤ poolEnd w o - poolStart w o := by
    -- the first position visited is the start of the poolWindow
    have hpos : 0 < poolCount c isD w o := by
      have := List.length_pos_iff.2 hne
      omega
    have hm : poolStart w o ∈ dimWindow w o := by
      rw [← hv]
      unfold dimVisited
      refine List.mem_map.2 ⟨0, mem_upto.2 ⟨le_rfl, hpos⟩, ?_⟩
      cases isD <;> simp
    obtain ⟨⟨k, hk0, hk, hs⟩, h0, hI⟩ := mem_dimWindow.1 hm
    have : k * w.dil ≤ (w.kernel - 1) * w.dil := by nlinarith
    unfold poolEnd
    have : poolStart w o < min w.input (o * w.stride + (w.kernel - 1) * w.dil + 1 - w.pad) := by
      rw [lt_min_iff]; constructor <;> omega
    omega
  rw [hlen]
  cases isD with
  | false => rw [poolCount_nondil c w o (h1 rfl)]; rfl
  | true =>
    rw [poolCount_dil c w o hd]
    unfold poolFull poolDimExpr
    simp only [if_true]
    cases c with
    | false =>
      simp only [Bool.false_eq_true, if_false]
      exact Int.tdiv_eq_ediv_of_nonneg (by omega)
    | true =>
      simp only [if_true]
      rw [cdiv_eq_tdiv (by omega) hd]

theorem length_cart : ∀ Ls : List (List ℤ), (cart Ls).length = (Ls.map List.length).prod
  | [] => rfl
  | L :: Ls => by
    rw [cart, List.length_flatMap]
    simp only [List.length_map, length_cart Ls, List.map_const', List.sum_replicate, List.map_cons, List.prod_cons,
      smul_eq_mul]

theorem prodSizes_eq : ∀ (L : List ℤ), prodSizes L = L.prod
  | [] => rfl
  | x :: xs => by
    have : ∀ (M : List ℤ) (z : ℤ), M.foldl (· * ·) z = z * M.prod := by
      intro M
      induction M with
      | nil => intro z; simp
      | cons a M ih => intro z; rw [List.foldl_cons, ih, List.prod_cons, mul_assoc]
    rw [prodSizes, this, List.prod_cons]

theorem cart_nonempty : ∀ {Ls : List (List ℤ)}, cart Ls ≠ [] → ∀ L ∈ Ls, L ≠ []
  | [], _, L, hL => by simp at hL
  | M :: Ls, h, L, hL => by
    rcases List.mem_cons.1 hL with rfl | hL
    · rintro rfl; exact h (by simp [cart])
    · refine cart_nonempty (fun hc => h ?_) L hL
      rw [cart, hc]; simp

theorem mem_zipWith' {α β γ : Type*} {f : α → β → γ} : ∀ {L : List α} {M : List β} {p : α × β},
    p ∈ L.zip M → f p.1 p.2 ∈ List.zipWith f L M
  | [], _, _, h => by simp at h
  | _ :: _, [], _, h => by simp at h
  | a :: L, b :: M, p, h => by
    rw [List.zip_cons_cons] at h
    rw [List.zipWith_cons_cons]
    rcases List.mem_cons.1 h with rfl | h
    · simp
    · exact List.mem_cons_of_mem _ (mem_zipWith' h)

theorem prodSizes_window {c isD : Bool} {ws : List WinDim} {o : Idx}
    (hd : ∀ w ∈ ws, 0 < w.dil) (h1 : isD = false → ∀ w ∈ ws, w.dil = 1)
    (hv : ∀ p ∈ ws.zip o, dimVisited c isD p.1 p.2 = dimWindow p.1 p.2) (hne : poolWindow ws o ≠ []) :
    prodSizes (List.zipWith (poolFull c isD) ws o) = ((poolWindow ws o).length : ℤ) := by
  have hw : ∀ p ∈ ws.zip o, dimWindow p.1 p.2 ≠ [] := fun p hp =>
    cart_nonempty hne _ (mem_zipWith' hp)
  have e : List.zipWith (poolFull c isD) ws o = List.zipWith (fun w x => ((dimWindow w x).length : ℤ)) ws o := by
    refine zipWith_congr_mem ws o fun p hp => ?_
    rw [← hv p hp]
    have hpw := (List.of_mem_zip hp).1
    refine poolFull_eq (hd _ hpw) (fun h => h1 h _ hpw) ?_ (hv p hp)
    rw [hv p hp]; exact hw p hp
  rw [prodSizes_eq, e]
  unfold poolWindow
  rw [length_cart, List.map_zipWith]
  have : ∀ (ws : List WinDim) (o : Idx), (List.zipWith (fun w x => ((dimWindow w x).length : ℤ)) ws o).prod =
      ((List.zipWith (fun w x => (dimWindow w x).length) ws o).prod : ℕ) := by
    intro ws
    induction ws with
    | nil => intro o; simp
    | cons w ws ih =>
      intro o
      cases o with
      | nil => simp
      | cons x o =>
        rw [List.zipWith_cons_cons, List.zipWith_cons_cons, List.prod_cons, List.prod_cons, ih, Nat.cast_mul]
  exact this ws o

theorem mem_winDims_zip {Is Ks ps ss ds : List ℤ} {o : Idx} (ho : o.length = Is.length) {p : WinDim × ℤ}
    (hp : p ∈ (winDims Is Ks ps ss ds).zip o) : ∃ i, i < Is.length ∧
      p.1 = ⟨Is.getD i 0, Ks.getD i 0, ps.getD i 0, ss.getD i 0, ds.getD i 0⟩ ∧ p.2 = o.getD i 0 := by
  obtain ⟨i, hi, rfl⟩ := List.mem_iff_getElem.1 hp
  have hi' : i < Is.length := by
    rw [List.length_zip] at hi
    omega
  refine ⟨i, hi', ?_, ?_⟩
  · rw [List.getElem_zip]
    simp [winDims]
  · rw [List.getElem_zip, List.getD_eq_getElem?_getD, List.getElem?_eq_getElem (by omega)]
    rfl

theorem mem_winDims {Is Ks ps ss ds : List ℤ} {w : WinDim} (hw : w ∈ winDims Is Ks ps ss ds) :
    ∃ i, i < Is.length ∧ w = ⟨Is.getD i 0, Ks.getD i 0, ps.getD i 0, ss.getD i 0, ds.getD i 0⟩ := by
  unfold winDims at hw
  obtain ⟨i, hi, rfl⟩ := List.mem_map.1 hw
  exact ⟨i, List.mem_range.1 hi, rfl⟩

theorem inShape_getD {o od : List ℤ} (h : InShape o od) {i : ℕ} (hi : i < od.length) :
    0 ≤ o.getD i 0 ∧ o.getD i 0 < od.getD i 0 := by
  have hl := h.length
  have := List.forall₂_iff_get.1 h
  have h2 := this.2 i (by omega) hi
  rw [List.getD_eq_getElem?_getD, List.getElem?_eq_getElem (by omega), List.getD_eq_getElem?_getD,
    List.getElem?_eq_getElem hi]
  exact h2

/-- The folding order does not matter for a maximum. -/
theorem foldl_max_spec [LinearOrder R] : ∀ (L : List R) (z : R),
    (∀ x ∈ L, x ≤ L.foldl max z) ∧ z ≤ L.foldl max z ∧ (L.foldl max z = z ∨ L.foldl max z ∈ L)
  | [], z => by simp
  | a :: L, z => by
    obtain ⟨h1, h2, h3⟩ := foldl_max_spec L (max z a)
    rw [List.foldl_cons]
    refine ⟨?_, le_trans (le_max_left _ _) h2, ?_⟩
    · intro x hx
      rcases List.mem_cons.1 hx with rfl | hx
      · exact le_trans (le_max_right _ _) h2
      · exact h1 x hx
    · rcases h3 with h3 | h3
      · rcases max_choice z a with h | h
        · left; rw [h3, h]
        · right; rw [h3, h]; simp
      · right; simp [h3]

end

end Verif.Lower
