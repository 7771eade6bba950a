import Verif.Lower.ConvModel
import Verif.Lower.SelectLemmas

/-!
Lemmas about the models of Conv and pooling.
-/

namespace Verif.Lower

section
variable {R : Type*}

theorem cdiv_le {a b k : ℤ} (hb : 0 < b) : cdiv a b ≤ k ↔ a ≤ k * b := by
  unfold cdiv
  have := Int.le_ediv_iff_mul_le hb (a := -k) (b := -a)
  constructor
  · intro h
    have := this.1 (by omega)
    nlinarith
  · intro h
    have := this.2 (by nlinarith)
    omega

theorem lt_cdiv {a b k : ℤ} (hb : 0 < b) : k < cdiv a b ↔ k * b < a := by
  rw [← not_le, cdiv_le hb, not_le]

/-- Two increasing lists with the same members are equal. -/
theorem sorted_ext {L M : List ℤ} (hL : L.Pairwise (· < ·)) (hM : M.Pairwise (· < ·))
    (h : ∀ x, x ∈ L ↔ x ∈ M) : L = M := by
  have nd : ∀ {L : List ℤ}, L.Pairwise (· < ·) → L.Nodup := fun h => h.imp (fun h => ne_of_lt h)
  have hp : L.Perm M := (List.perm_ext_iff_of_nodup (nd hL) (nd hM)).2 h
  exact hp.eq_of_pairwise (fun a b _ _ h1 h2 => absurd (lt_trans h1 h2) (lt_irrefl _)) hL hM

theorem sorted_upto (n : ℤ) : (upto n).Pairwise (· < ·) := by
  unfold upto
  rw [List.pairwise_map]
  exact List.pairwise_lt_range.imp fun h => by omega

theorem mem_rangeList {lb ub x : ℤ} : x ∈ rangeList lb ub ↔ lb ≤ x ∧ x < ub := by
  unfold rangeList
  simp only [List.mem_map, mem_upto]
  constructor
  · rintro ⟨t, h, rfl⟩; omega
  · intro h; exact ⟨x - lb, by omega, by omega⟩

theorem sorted_rangeList (lb ub : ℤ) : (rangeList lb ub).Pairwise (· < ·) := by
  unfold rangeList
  rw [List.pairwise_map]
  exact (sorted_upto _).imp fun h => by omega

/-- The loop over the kernel visits exactly the positions inside the image. -/
theorem convRange_eq (w : WinDim) (o : ℤ) (hd : 0 < w.dil) :
    rangeList (convLb w o) (convUb w o) = (upto w.kernel).filter fun k =>
      decide (0 ≤ k * w.dil - (w.pad - o * w.stride) ∧ k * w.dil - (w.pad - o * w.stride) < w.input) := by
  refine sorted_ext (sorted_rangeList _ _) ((sorted_upto _).filter _) fun k => ?_
  rw [mem_rangeList, List.mem_filter, mem_upto]
  unfold convLb convUb
  rw [max_le_iff, lt_min_iff, cdiv_le hd, lt_cdiv hd]
  simp only [decide_eq_true_eq]
  constructor <;> intro h <;> refine ⟨⟨?_, ?_⟩, ?_, ?_⟩ <;> omega

theorem cart_idxs : ∀ dims : List ℤ, idxs dims = cart (dims.map upto)
  | [] => rfl
  | d :: ds => by rw [idxs, List.map_cons, cart, cart_idxs ds]

theorem filter_flatMap_cons (L : List ℤ) (M : List Idx) (p : ℤ → Bool) (q : Idx → Bool) :
    (L.flatMap fun x => M.map (x :: ·)).filter (fun i => p (i.getD 0 0) && q i.tail) =
      (L.filter p).flatMap fun x => (M.filter q).map (x :: ·) := by
  induction L with
  | nil => rfl
  | cons a L ih =>
    rw [List.flatMap_cons, List.filter_append, ih, List.filter_map]
    have : ((fun i : Idx => p (i.getD 0 0) && q i.tail) ∘ fun x => a :: x) = fun i => p a && q i := by
      funext i; rfl
    rw [this]
    cases hp : p a with
    | false => rw [List.filter_cons_of_neg (by simp [hp])]; simp
    | true => rw [List.filter_cons_of_pos hp]; simp

/-- The nest over the kernel visits exactly the positions inside the image. -/
theorem convLoops_eq : ∀ (ws : List WinDim) (o : Idx), o.length = ws.length → (∀ w ∈ ws, 0 < w.dil) →
    cart (List.zipWith (fun w x => rangeList (convLb w x) (convUb w x)) ws o) =
      (idxs (ws.map WinDim.kernel)).filter fun k => decide (InShape (accPos ws o k) (ws.map WinDim.input))
  | [], [], _, _ => by simp [cart, idxs, accPos, InShape]
  | [], _ :: _, h, _ => by simp at h
  | _ :: _, [], h, _ => by simp at h
  | w :: ws, x :: o, h, hd => by
    have ih := convLoops_eq ws o (by simpa using h) (fun w hw => hd w (by simp [hw]))
    rw [List.zipWith_cons_cons, cart, ih, convRange_eq w x (hd w (by simp)), ← filter_flatMap_cons, List.map_cons]
    show _ = List.filter _ ((upto w.kernel).flatMap fun x => (idxs (ws.map WinDim.kernel)).map (x :: ·))
    refine List.filter_congr fun k hk => ?_
    have : ∃ a b, k = a :: b := by
      simp only [List.mem_flatMap, List.mem_map] at hk
      obtain ⟨a, _, b, _, rfl⟩ := hk
      exact ⟨a, b, rfl⟩
    obtain ⟨a, b, rfl⟩ := this
    rw [Bool.eq_iff_iff, Bool.and_eq_true, decide_eq_true_eq, decide_eq_true_eq, decide_eq_true_eq]
    exact inShape_cons.symm

theorem foldlM_val {α S : Type*} (f : S → α → Option S) (g : S → α → S) :
    ∀ (L : List α) (s : S), (∀ a ∈ L, ∀ s, f s a = some (g s a)) → L.foldlM f s = some (L.foldl g s)
  | [], _, _ => rfl
  | a :: L, s, h => by
    rw [List.foldlM_cons, h a (by simp), List.foldl_cons]
    exact foldlM_val f g L _ fun b hb => h b (by simp [hb])

theorem storeNest {α : Type*} (body : α → Mem R → Option (Mem R)) (tgt : α → Idx) (val : α → R) (L : List α)
    (m : Mem R) (h : ∀ a ∈ L, InShape (tgt a) m.shape ∧ ∀ o : Mem R, o.shape = m.shape → body a o = o.store (tgt a) (val a)) :
    L.foldlM (fun o a => body a o) m = some ⟨m.shape, lastStore L tgt val m.data⟩ := by
  rw [← storeLoop_spec (fun a => some (tgt a, val a)) tgt val L m (fun a ha => ⟨rfl, (h a ha).1⟩)]
  have key : ∀ (L : List α) (o : Mem R), o.shape = m.shape →
      (∀ a ∈ L, InShape (tgt a) m.shape ∧ ∀ o : Mem R, o.shape = m.shape → body a o = o.store (tgt a) (val a)) →
      L.foldlM (fun o a => body a o) o = L.foldlM (fun o a => (some (tgt a, val a)).bind fun p => Mem.store o p.1 p.2) o := by
    intro L
    induction L with
    | nil => intro o _ _; rfl
    | cons a L ih =>
      intro o ho hL
      have e : Mem.store o (tgt a) (val a) =
          some { o with data := fun i => if i = tgt a then val a else o.data i } := by
        unfold Mem.store; rw [if_pos (by rw [ho]; exact (hL a (by simp)).1)]
      rw [List.foldlM_cons, List.foldlM_cons, (hL a (by simp)).2 o ho]
      simp only [Option.bind_some, e, Option.bind_eq_bind]
      exact ih _ ho fun b hb => hL b (by simp [hb])
  exact key L m rfl h

theorem sum_filter [AddCommMonoid R] {α : Type*} (L : List α) (p : α → Bool) (f : α → R) :
    ((L.filter p).map f).sum = (L.map fun a => if p a then f a else 0).sum := by
  induction L with
  | nil => rfl
  | cons a L ih =>
    cases hp : p a with
    | false => rw [List.filter_cons_of_neg (by simp [hp])]; simp [hp, ih]
    | true => rw [List.filter_cons_of_pos hp]; simp [hp, ih]

theorem foldl_addf_sum [AddCommMonoid R] {α : Type*} (f : α → R) : ∀ (L : List α) (z : R),
    L.foldl (fun s a => s + f a) z = z + (L.map f).sum
  | [], z => by simp
  | a :: L, z => by rw [List.foldl_cons, foldl_addf_sum f L, List.map_cons, List.sum_cons, add_assoc]

theorem rangeList_zero (n : ℤ) : rangeList 0 n = upto n := by
  unfold rangeList; simp

theorem convNest_eq (CIg : ℤ) (ws : List WinDim) (o : Idx) (ho : o.length = ws.length) (hd : ∀ w ∈ ws, 0 < w.dil) :
    cart (rangeList 0 CIg :: List.zipWith (fun w x => rangeList (convLb w x) (convUb w x)) ws o) =
      (idxs (CIg :: ws.map WinDim.kernel)).filter fun r =>
        decide (InShape (accPos ws o r.tail) (ws.map WinDim.input)) := by
  have h := filter_flatMap_cons (upto CIg) (idxs (ws.map WinDim.kernel)) (fun _ => true)
    (fun k => decide (InShape (accPos ws o k) (ws.map WinDim.input)))
  simp only [Bool.true_and, List.filter_true] at h
  rw [cart, convLoops_eq ws o ho hd, rangeList_zero, ← h]
  rfl

theorem winDims_maps {Is Ks ps ss ds : List ℤ} (h1 : Ks.length = Is.length) :
    (winDims Is Ks ps ss ds).map WinDim.input = Is ∧ (winDims Is Ks ps ss ds).map WinDim.kernel = Ks ∧
      (winDims Is Ks ps ss ds).length = Is.length := by
  unfold winDims
  refine ⟨?_, ?_, by simp⟩
  · rw [List.map_map]
    exact map_getD_range Is
  · rw [List.map_map, ← h1]
    exact map_getD_range Ks

/-- The value computed by the reduction loops. -/
def convValue [NonUnitalNonAssocSemiring R] (X W : Mem R) (ws : List WinDim) (n co gci : ℤ) (o : Idx) : R :=
  ((idxs (W.shape.drop 1)).map fun r =>
    (if InShape (accPos ws o r.tail) (X.shape.drop 2) then X.data ([n, gci + r.getD 0 0] ++ accPos ws o r.tail) else 0) *
      W.data ([co] ++ r)).sum

theorem convRed_spec [NonUnitalNonAssocSemiring R] {X W : Mem R} {N CI CO CIg n co gci : ℤ} {Is Ks : List ℤ}
    (hX : X.shape = [N, CI] ++ Is) (hW : W.shape = [CO, CIg] ++ Ks) (ws : List WinDim) (hwi : ws.map WinDim.input = Is)
    (hwk : ws.map WinDim.kernel = Ks) (hd : ∀ w ∈ ws, 0 < w.dil) (o : Idx) (ho : o.length = ws.length)
    (hn : 0 ≤ n ∧ n < N) (hco : 0 ≤ co ∧ co < CO) (hg : 0 ≤ gci ∧ gci + CIg ≤ CI) :
    (cart (rangeList 0 CIg :: List.zipWith (fun w x => rangeList (convLb w x) (convUb w x)) ws o)).foldlM
      (fun acc r => convStep X W ws n co gci o r acc) (0 : R) = some (convValue X W ws n co gci o) := by
  rw [convNest_eq CIg ws o ho hd, hwi, hwk]
  rw [foldlM_val _ (fun (acc : R) r => acc + X.data ([n, gci + r.getD 0 0] ++ accPos ws o r.tail) * W.data ([co] ++ r))]
  · rw [foldl_addf_sum, zero_add, sum_filter]
    unfold convValue
    rw [hW, hX]
    simp only [List.cons_append, List.nil_append, List.drop_succ_cons, List.drop_zero]
    congr 2
    refine List.map_congr_left fun r _ => ?_
    by_cases hc : InShape (accPos ws o r.tail) Is
    · simp only [hc, decide_true, if_true]
    · simp only [hc, decide_false, Bool.false_eq_true, if_false, zero_mul]
  · intro r hr acc
    rw [List.mem_filter, mem_idxs, decide_eq_true_eq] at hr
    obtain ⟨hr, hp⟩ := hr
    cases r with
    | nil => exact absurd hr (by intro h; cases h)
    | cons c k =>
      rw [inShape_cons] at hr
      unfold convStep
      simp only [List.getD_cons_zero, List.tail_cons] at hp ⊢
      rw [mem_load (by
        rw [hX]
        exact inShape_app (inShape_cons.2 ⟨hn, inShape_one (by omega)⟩) hp), Option.bind_some,
        mem_load (by rw [hW]; exact inShape_app (inShape_cons.2 ⟨hco, inShape_one hr.1⟩) hr.2)]
      rfl

/-- The bias added to a channel. -/
def biasAt [Zero R] (B : Option (Mem R)) (co : ℤ) : R :=
  match B with
  | none => 0
  | some b => b.data [co]

theorem conv_spec [NonUnitalNonAssocSemiring R] {X W : Mem R} (B : Option (Mem R)) {N G COg CIg : ℤ} {Is Ks ps ss ds od : List ℤ}
    (hG : 0 < G) (hci : 0 ≤ CIg) (hX : X.shape = [N, G * CIg] ++ Is) (hW : W.shape = [G * COg, CIg] ++ Ks)
    (hB : ∀ b, B = some b → b.shape = [G * COg])
    (h1 : Ks.length = Is.length) (h4 : ds.length = Is.length)
    (hd : ∀ d ∈ ds, 0 < d) (hod : od.length = Is.length) (junk : Idx → R) :
    ∃ out, conv X W B G ps ss ds od junk = some out ∧ out.shape = [N, G * COg] ++ od ∧
      ∀ n g c o, 0 ≤ n ∧ n < N → 0 ≤ g ∧ g < G → 0 ≤ c ∧ c < COg → InShape o od →
        out.data ([n, g * COg + c] ++ o) =
          convValue X W (winDims Is Ks ps ss ds) n (g * COg + c) (g * CIg) o +
            biasAt B (g * COg + c) := by
  obtain ⟨hwi, hwk, hwl⟩ := winDims_maps (ps := ps) (ss := ss) (ds := ds) h1
  have hwd : ∀ w ∈ winDims Is Ks ps ss ds, 0 < w.dil := by
    intro w hw
    unfold winDims at hw
    obtain ⟨i, hi, rfl⟩ := List.mem_map.1 hw
    have hi := List.mem_range.1 hi
    simp only
    rw [List.getD_eq_getElem?_getD, List.getElem?_eq_getElem (by omega)]
    exact hd _ (List.getElem_mem _)
  have hcd : cdiv (G * COg) G = COg := by
    have a := (cdiv_le hG (a := G * COg) (k := COg)).2 (by rw [mul_comm])
    have b : ¬ cdiv (G * COg) G ≤ COg - 1 := by rw [cdiv_le hG]; nlinarith
    omega
  have hco : ∀ {g c : ℤ}, 0 ≤ g ∧ g < G → 0 ≤ c ∧ c < COg → 0 ≤ g * COg + c ∧ g * COg + c < G * COg := by
    intro g c hg hc
    constructor
    · have := mul_nonneg hg.1 (show 0 ≤ COg by omega); omega
    · nlinarith
  have hgci : ∀ {g : ℤ}, 0 ≤ g ∧ g < G → 0 ≤ CIg → 0 ≤ g * CIg ∧ g * CIg + CIg ≤ G * CIg := by
    intro g hg hc
    constructor
    · exact mul_nonneg hg.1 hc
    · nlinarith
  unfold conv
  have e0 : X.shape.getD 0 0 = N := by rw [hX]; rfl
  have e1 : W.shape.getD 0 0 = G * COg := by rw [hW]; rfl
  have e2 : W.shape.getD 1 0 = CIg := by rw [hW]; rfl
  have e3 : X.shape.drop 2 = Is := by rw [hX]; rfl
  have e4 : W.shape.drop 2 = Ks := by rw [hW]; rfl
  simp only [e0, e1, e2, e3, e4, hcd]
  generalize hws : winDims Is Ks ps ss ds = ws at *
  unfold iterate
  have hsplit : ∀ {i : Idx}, InShape i ([N, G, COg] ++ od) → ∃ n g c o, i = [n, g, c] ++ o ∧ (0 ≤ n ∧ n < N) ∧
      (0 ≤ g ∧ g < G) ∧ (0 ≤ c ∧ c < COg) ∧ InShape o od := by
    intro i hi
    obtain ⟨a, o, rfl, ha, ho⟩ := inShape_split' hi
    match a, ha with
    | [n, g, c], ha =>
      rw [inShape_cons, inShape_cons, inShape_cons] at ha
      exact ⟨n, g, c, o, rfl, ha.1, ha.2.1, ha.2.2.1, ho⟩
  have h := storeNest (R := R) (convBody X W B ws COg CIg)
    (fun i => [i.getD 0 0, i.getD 1 0 * COg + i.getD 2 0] ++ i.drop 3)
    (fun i => convValue X W ws (i.getD 0 0) (i.getD 1 0 * COg + i.getD 2 0) (i.getD 1 0 * CIg) (i.drop 3) +
            biasAt B (i.getD 1 0 * COg + i.getD 2 0))
    (idxs ([N, G, COg] ++ od)) ⟨[N, G * COg] ++ od, junk⟩ (by
      intro i hi
      obtain ⟨n, g, c, o, rfl, hn, hg, hc, ho⟩ := hsplit (mem_idxs.1 hi)
      simp only [List.cons_append, List.nil_append, List.getD_cons_zero, List.getD_cons_succ, List.drop_succ_cons, List.drop_zero]
      refine ⟨inShape_cons.2 ⟨hn, inShape_cons.2 ⟨hco hg hc, ho⟩⟩, fun out hout => ?_⟩
      · unfold convBody
        simp only [List.getD_cons_zero, List.getD_cons_succ, List.drop_succ_cons, List.drop_zero]
        rw [convRed_spec hX hW ws hwi hwk hwd o (by rw [ho.length, hod, hwl]) hn (hco hg hc) (hgci hg hci), Option.bind_some]
        cases hb : B with
        | none => simp only [convStore, biasAt, add_zero, List.cons_append, List.nil_append]
        | some b =>
          simp only [convStore, biasAt, List.cons_append, List.nil_append]
          rw [mem_load (by rw [hB b hb]; exact inShape_one (hco hg hc)), Option.bind_some]
      )
  refine ⟨_, h, rfl, ?_⟩
  intro n g c o hn hg hc ho
  refine (lastStore_unique (a := [n, g, c] ++ o) (mem_idxs.2 (inShape_app
    (inShape_cons.2 ⟨hn, inShape_cons.2 ⟨hg, inShape_one hc⟩⟩) ho)) rfl ?_)
  intro i hi he
  obtain ⟨n', g', c', o', rfl, hn', hg', hc', ho'⟩ := hsplit (mem_idxs.1 hi)
  simp only [List.cons_append, List.nil_append, List.getD_cons_zero, List.getD_cons_succ, List.drop_succ_cons, List.drop_zero,
    List.cons.injEq] at he ⊢
  obtain ⟨rfl, h2, rfl⟩ := he
  have hgg : g' = g := by
    rcases lt_trichotomy g' g with h | h | h
    · nlinarith
    · exact h
    · nlinarith
  subst hgg
  rw [h2]

end

end Verif.Lower
