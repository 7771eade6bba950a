import Verif.Krnl.MatmulModel
import Verif.Krnl.LoopLemmas
import Mathlib.Algebra.BigOperators.Pi
import Mathlib.Algebra.BigOperators.Ring.Finset
import Mathlib.Algebra.Order.BigOperators.Group.Finset
import Mathlib.Algebra.Group.TypeTags.Basic

open Finset

namespace Verif.Krnl

/-! ### Loops and sums -/

theorem starts_nil {lo hi : ℤ} {s : ℕ} (hs : 0 < s) (h : hi ≤ lo) : starts lo hi s = [] := by
  unfold starts
  have : (hi - lo).toNat = 0 := by omega
  rw [this, Nat.div_eq_of_lt (by omega)]
  rfl

theorem starts_cons {lo hi : ℤ} {s : ℕ} (hs : 0 < s) (h : lo < hi) :
    starts lo hi s = lo :: starts (lo + s) hi s := by
  unfold starts
  have hn : ((hi - lo).toNat + (s - 1)) / s = ((hi - (lo + s)).toNat + (s - 1)) / s + 1 := by
    by_cases hc : lo + s ≤ hi
    · have : (hi - lo).toNat + (s - 1) = ((hi - (lo + s)).toNat + (s - 1)) + s := by omega
      rw [this, Nat.add_div_right _ hs]
    · have h0 : (hi - (lo + s)).toNat = 0 := by omega
      rw [h0, Nat.div_eq_of_lt (show 0 + (s - 1) < s by omega)]
      have : (hi - lo).toNat + (s - 1) = ((hi - lo).toNat - 1) + s := by omega
      rw [this, Nat.add_div_right _ hs, Nat.div_eq_of_lt (by omega)]
  rw [hn, List.range_succ_eq_map, List.map_cons, List.map_map]
  congr 1
  · simp
  · apply List.map_congr_left
    intro k _
    simp only [Function.comp_apply, Nat.succ_eq_add_one]
    push_cast
    ring

theorem int_sum_consecutive {M : Type*} [AddCommMonoid M] (f : ℤ → M) {a b c : ℤ}
    (hab : a ≤ b) (hbc : b ≤ c) :
    (∑ v ∈ Ico a b, f v) + ∑ v ∈ Ico b c, f v = ∑ v ∈ Ico a c, f v := by
  rw [← Finset.sum_union (Finset.Ico_disjoint_Ico_consecutive a b c),
    Finset.Ico_union_Ico_eq_Ico hab hbc]

theorem starts_sum {M : Type*} [AddCommMonoid M] (lo hi : ℤ) {s : ℕ} (hs : 0 < s) (f : ℤ → M) :
    ((starts lo hi s).map fun (x : ℤ) => ∑ v ∈ Ico x (min (x + s) hi), f v).sum =
      ∑ v ∈ Ico lo hi, f v := by
  generalize hn : (hi - lo).toNat = n
  induction n using Nat.strong_induction_on generalizing lo with
  | _ n ih =>
    by_cases h : lo < hi
    · rw [starts_cons hs h, List.map_cons, List.sum_cons]
      rw [ih (hi - (lo + s)).toNat (by omega) (lo + s) rfl]
      by_cases hc : lo + s ≤ hi
      · rw [min_eq_left hc, int_sum_consecutive f (by omega) hc]
      · rw [min_eq_right (by omega), Finset.Ico_eq_empty (a := lo + s) (by omega)]
        simp
    · rw [starts_nil hs (by omega), Finset.Ico_eq_empty (a := lo) (by omega)]
      simp

theorem starts_one_sum {M : Type*} [AddCommMonoid M] (lo hi : ℤ) (f : ℤ → M) :
    ((starts lo hi 1).map f).sum = ∑ v ∈ Ico lo hi, f v := by
  rw [← starts_sum lo hi (s := 1) (by omega) f]
  congr 1
  apply List.map_congr_left
  intro x hx
  obtain ⟨k, rfl, hlt⟩ := (mem_starts (by omega)).1 hx
  have : min (lo + (k : ℤ) * ((1 : ℕ) : ℤ) + ((1 : ℕ) : ℤ)) hi = lo + (k : ℤ) * ((1 : ℕ) : ℤ) + 1 := by
    push_cast
    push_cast at hlt
    omega
  rw [this]
  have : Ico (lo + (k : ℤ) * ((1 : ℕ) : ℤ)) (lo + (k : ℤ) * ((1 : ℕ) : ℤ) + 1) =
      {lo + (k : ℤ) * ((1 : ℕ) : ℤ)} := by
    ext y; simp only [mem_Ico, mem_singleton]; omega
  rw [this, sum_singleton]

theorem foldlM_acc {S X M : Type*} [AddCommMonoid M] (val : S → M) (Inv : S → Prop)
    (body : S → X → Option S) (f : X → M) : ∀ (L : List X),
    (∀ x ∈ L, ∀ st, Inv st → ∃ st', body st x = some st' ∧ Inv st' ∧ val st' = val st + f x) →
    ∀ st, Inv st → ∃ st', L.foldlM body st = some st' ∧ Inv st' ∧
      val st' = val st + (L.map f).sum
  | [], _, st, h => ⟨st, rfl, h, by simp⟩
  | x :: L, H, st, h => by
    obtain ⟨s1, h1, h2, h3⟩ := H x (by simp) st h
    obtain ⟨s2, h4, h5, h6⟩ := foldlM_acc val Inv body f L
      (fun y hy => H y (by simp [hy])) s1 h2
    refine ⟨s2, ?_, h5, ?_⟩
    · rw [List.foldlM_cons, h1]; exact h4
    · rw [h6, h3, List.map_cons, List.sum_cons, add_assoc]

theorem forLoop_acc {S M : Type*} [AddCommMonoid M] (val : S → M) (Inv : S → Prop)
    (lo hi : ℤ) (s : ℕ) (body : ℤ → S → Option S) (f : ℤ → M)
    (H : ∀ x ∈ starts lo hi s, ∀ st, Inv st →
      ∃ st', body x st = some st' ∧ Inv st' ∧ val st' = val st + f x) :
    ∀ st, Inv st → ∃ st', forLoop lo hi s body st = some st' ∧ Inv st' ∧
      val st' = val st + ((starts lo hi s).map f).sum :=
  foldlM_acc val Inv _ f _ H

theorem forLoop_inv {S : Type*} (P : ℤ → S → Prop) (body : ℤ → S → Option S) (lo hi : ℤ)
    (hle : lo ≤ hi) (H : ∀ x, lo ≤ x → x < hi → ∀ st, P x st →
      ∃ st', body x st = some st' ∧ P (x + 1) st') :
    ∀ st, P lo st → ∃ st', forLoop lo hi 1 body st = some st' ∧ P hi st' := by
  generalize hn : (hi - lo).toNat = n
  induction n generalizing lo with
  | zero =>
    intro st h
    have : lo = hi := by omega
    subst this
    refine ⟨st, ?_, h⟩
    unfold forLoop
    rw [starts_nil (by omega) (le_refl _)]
    rfl
  | succ n ih =>
    intro st h
    have hlt : lo < hi := by omega
    obtain ⟨s1, h1, h2⟩ := H lo (le_refl _) hlt st h
    obtain ⟨s2, h3, h4⟩ := ih (lo + 1) (by omega) (fun x hx => H x (by omega)) (by omega) s1 h2
    refine ⟨s2, ?_, h4⟩
    unfold forLoop at h3 ⊢
    rw [starts_cons (by omega) hlt, List.foldlM_cons, h1]
    simpa using h3

/-! ### Tile helpers -/

theorem isTileFull_iff {i block : ℤ} {ub : IE} (hb : 0 < block) (hd : block ∣ i)
    (hi : i < ub.val) : 0 ≤ isTileFull i block ub ↔ i + block ≤ ub.val := by
  unfold isTileFull
  by_cases h : ub.lit = true ∧ ub.val % block = 0
  · rw [if_pos h]
    simp only [Int.zero_le_ofNat, true_iff]
    obtain ⟨a, ha⟩ := Int.dvd_of_emod_eq_zero h.2
    obtain ⟨b, rfl⟩ := hd
    rw [ha] at hi ⊢
    have : b < a := lt_of_mul_lt_mul_left hi (le_of_lt hb)
    nlinarith
  · rw [if_neg h]; constructor <;> intro <;> omega

theorem tileSize_eq {i block : ℤ} {ub : IE} (hb : 0 < block) (hd : block ∣ i)
    (hi : i < ub.val) : i + tileSize i block ub = min (i + block) ub.val := by
  unfold tileSize
  by_cases h : ub.lit = true ∧ ub.val % block = 0
  · rw [if_pos h]
    have := (isTileFull_iff hb hd hi).1 (by unfold isTileFull; rw [if_pos h]; norm_num)
    omega
  · rw [if_neg h]; omega

theorem partialTileSize_eq {i block : ℤ} {ub : IE} (hb : 0 < block) (hd : block ∣ i)
    (hi : i < ub.val) (hp : ub.val < i + block) : i + partialTileSize i block ub = ub.val := by
  unfold partialTileSize
  by_cases h : ub.lit = true
  · rw [if_pos h]
    obtain ⟨b, rfl⟩ := hd
    have : ub.val % block = ub.val - block * b := by
      have e : ub.val = (ub.val - block * b) + block * b := by ring
      rw [e, Int.add_mul_emod_self_left]
      rw [Int.emod_eq_of_lt (by omega) (by omega)]
      ring
    omega
  · rw [if_neg h]; omega

/-! ### The kernel, with or without unroll-and-jam -/

theorem tIdx_jam {n x : ℤ} (h0 : 0 ≤ x) (hx : x < n) : tIdx n x = some x := by
  unfold tIdx
  by_cases h : n > 1
  · rw [if_pos h, if_pos ⟨h0, hx⟩]
  · rw [if_neg h, if_pos ⟨le_refl _, by omega⟩]
    congr 1; omega

theorem tIdx_one (x : ℤ) : tIdx 1 x = some 0 := by
  unfold tIdx; norm_num

theorem kernel_spec {R T : Type*} [AddCommMonoid R] [AddCommMonoid T] (jam : Bool) (uf n K : ℤ)
    (rd : (ℤ → R) → ℤ → Option T) (ma : ℤ → ℤ → T → Option T)
    (wr : (ℤ → R) → ℤ → T → Option (ℤ → R))
    (r : (ℤ → R) → ℤ → T) (g : ℤ → ℤ → T) (w : (ℤ → R) → ℤ → T → ℤ → R) (f : ℤ → ℤ → R)
    (hn : 0 ≤ n) (hK : 0 ≤ K) (huf : uf = if jam then n else 1)
    (H1 : ∀ c x, 0 ≤ x → x < n → rd c x = some (r c x))
    (H2 : ∀ x k t, 0 ≤ x → x < n → 0 ≤ k → k < K → ma x k t = some (t + g x k))
    (H3 : ∀ c x t, 0 ≤ x → x < n → wr c x t = some (w c x t))
    (H4 : ∀ c x, 0 ≤ x → x < n → w c x (r c x + ∑ k ∈ Ico 0 K, g x k) = c + f x)
    (H5 : ∀ c x y t, 0 ≤ x → x < n → 0 ≤ y → y < n → x ≠ y → r (w c x t) y = r c y) :
    ∀ s, ∃ s', kernel jam uf n K rd ma wr s = some s' ∧ s'.c = s.c + ∑ x ∈ Ico 0 n, f x := by
  intro s
  have sumStep : ∀ (h : ℤ → T) (k : ℤ), 0 ≤ k →
      ∑ k' ∈ Ico 0 (k + 1), h k' = (∑ k' ∈ Ico 0 k, h k') + h k := by
    intro h k hk
    rw [← int_sum_consecutive h hk (show k ≤ k + 1 by omega)]
    congr 1
    have : Ico k (k + 1) = {k} := by ext y; simp only [mem_Ico, mem_singleton]; omega
    rw [this, sum_singleton]
  cases jam with
  | true =>
    simp only [if_true] at huf
    subst huf
    unfold kernel
    rw [if_pos rfl]
    -- first parts
    obtain ⟨s1, e1, hc1, ht1⟩ := forLoop_inv
      (P := fun x st => st.c = s.c ∧ ∀ y, 0 ≤ y → y < x → st.t y = r s.c y)
      (kPre uf rd) 0 uf hn (by
        intro x h0 hx st ⟨hc, ht⟩
        refine ⟨{ st with t := Function.update st.t x (r s.c x) }, ?_, hc, ?_⟩
        · unfold kPre
          rw [hc, H1 _ _ h0 hx, tIdx_jam h0 hx]
          rfl
        · intro y hy0 hy
          by_cases hyx : y = x
          · subst hyx; simp
          · show Function.update st.t x (r s.c x) y = _
            rw [Function.update_of_ne hyx]
            exact ht y hy0 (by omega)) s ⟨rfl, by intro y _ _; omega⟩
    rw [e1]
    simp only [Option.bind_some]
    -- reduction
    obtain ⟨s2, e2, hc2, ht2⟩ := forLoop_inv
      (P := fun k st => st.c = s.c ∧ ∀ y, 0 ≤ y → y < uf →
        st.t y = r s.c y + ∑ k' ∈ Ico 0 k, g y k')
      (fun k s => forLoop 0 uf 1 (fun x s => kInner uf ma x k s) s) 0 K hK (by
        intro k hk0 hk st ⟨hc, ht⟩
        obtain ⟨s', e', hc', ht1', _⟩ := forLoop_inv
          (P := fun x st' => st'.c = s.c ∧
            (∀ y, 0 ≤ y → y < x → st'.t y = r s.c y + ∑ k' ∈ Ico 0 (k + 1), g y k') ∧
            (∀ y, x ≤ y → y < uf → st'.t y = r s.c y + ∑ k' ∈ Ico 0 k, g y k'))
          (fun x s => kInner uf ma x k s) 0 uf hn (by
            intro x hx0 hx st' ⟨hc', h1', h2'⟩
            refine ⟨{ st' with t := Function.update st'.t x (st'.t x + g x k) }, ?_, hc', ?_, ?_⟩
            · unfold kInner
              rw [tIdx_jam hx0 hx]
              simp only [Option.bind_some]
              rw [H2 x k _ hx0 hx hk0 hk]
              rfl
            · intro y hy0 hy
              by_cases hyx : y = x
              · subst hyx
                simp only [Function.update_self]
                rw [h2' y (le_refl _) hx, sumStep _ _ hk0, add_assoc]
              · show Function.update st'.t x _ y = _
                rw [Function.update_of_ne hyx]
                exact h1' y hy0 (by omega)
            · intro y hy hyn
              show Function.update st'.t x _ y = _
              rw [Function.update_of_ne (by omega)]
              exact h2' y (by omega) hyn) st
          ⟨hc, by intro y _ _; omega, fun y hy hyn => ht y hy hyn⟩
        exact ⟨s', e', hc', fun y hy0 hy => ht1' y hy0 hy⟩) s1
      ⟨hc1, fun y hy0 hy => by rw [ht1 y hy0 hy]; simp⟩
    rw [e2]
    simp only [Option.bind_some]
    -- last parts
    obtain ⟨s3, e3, hc3, _⟩ := forLoop_inv
      (P := fun x st => st.c = s.c + ∑ y ∈ Ico 0 x, f y ∧ st.t = s2.t ∧
        ∀ y, x ≤ y → y < uf → r st.c y = r s.c y)
      (kPost uf wr) 0 uf hn (by
        intro x hx0 hx st ⟨hc, ht, hr⟩
        refine ⟨{ st with c := w st.c x (st.t x) }, ?_, ?_, ht, ?_⟩
        · unfold kPost
          rw [tIdx_jam hx0 hx]
          simp only [Option.bind_some]
          rw [H3 _ _ _ hx0 hx]
          rfl
        · show w st.c x (st.t x) = _
          rw [ht, ht2 x hx0 hx, ← hr x (le_refl _) hx, H4 _ _ hx0 hx, hc]
          rw [← int_sum_consecutive f hx0 (show x ≤ x + 1 by omega)]
          have : Ico x (x + 1) = {x} := by ext y; simp only [mem_Ico, mem_singleton]; omega
          rw [this, sum_singleton, add_assoc]
        · intro y hy hyn
          show r (w st.c x (st.t x)) y = _
          rw [H5 _ _ _ _ hx0 hx (by omega) hyn (by omega)]
          exact hr y (by omega) hyn) s2 ⟨by rw [hc2]; simp, rfl, fun y _ _ => by rw [hc2]⟩
    exact ⟨s3, e3, hc3⟩
  | false =>
    simp only [Bool.false_eq_true, if_false] at huf
    subst huf
    unfold kernel
    rw [if_neg (by simp)]
    obtain ⟨s', e', _, hc'⟩ := forLoop_acc (fun st : KSt R T => st.c) (fun _ => True) 0 n 1
      (fun x s => (kPre 1 rd x s).bind fun s =>
        (forLoop 0 K 1 (fun k s => kInner 1 ma x k s) s).bind fun s => kPost 1 wr x s) f (by
      intro x hx st _
      obtain ⟨k, hk, hlt⟩ := (mem_starts (by omega)).1 hx
      have hx0 : 0 ≤ x := by push_cast at hk; omega
      have hpre : kPre 1 rd x st = some { st with t := Function.update st.t 0 (r st.c x) } := by
        unfold kPre
        rw [H1 _ _ hx0 hlt, tIdx_one]
        rfl
      rw [hpre]
      simp only [Option.bind_some]
      obtain ⟨s2, e2, hc2, ht2⟩ := forLoop_inv
        (P := fun k (st' : KSt R T) => st'.c = st.c ∧
          st'.t 0 = r st.c x + ∑ k' ∈ Ico 0 k, g x k')
        (fun k s => kInner 1 ma x k s) 0 K hK (by
          intro k hk0 hk st' ⟨hc, ht⟩
          refine ⟨{ st' with t := Function.update st'.t 0 (st'.t 0 + g x k) }, ?_, hc, ?_⟩
          · unfold kInner
            rw [tIdx_one]
            simp only [Option.bind_some]
            rw [H2 x k _ hx0 hlt hk0 hk]
            rfl
          · show Function.update st'.t 0 _ 0 = _
            rw [Function.update_self, ht, sumStep _ _ hk0]
            exact add_assoc _ _ _)
        { st with t := Function.update st.t 0 (r st.c x) } ⟨rfl, by simp⟩
      rw [e2]
      simp only [Option.bind_some]
      refine ⟨{ s2 with c := w s2.c x (s2.t 0) }, ?_, trivial, ?_⟩
      · unfold kPost
        rw [tIdx_one]
        simp only [Option.bind_some]
        rw [H3 _ _ _ hx0 hlt]
        rfl
      · show w s2.c x (s2.t 0) = _
        rw [hc2, ht2, H4 _ _ hx0 hlt]) s trivial
    exact ⟨s', e', by rw [hc', starts_one_sum]⟩

end Verif.Krnl
