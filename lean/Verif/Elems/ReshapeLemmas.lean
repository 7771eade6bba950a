import Verif.Elems.Lemmas
import Verif.Elems.ReshapeModel

namespace Verif.Elems

/-- Offset of the `k`-th element of a list of axes. -/
def pf (l : List (Nat × Nat)) (k : Nat) : Nat := posN (unrank (l.map (·.1)) k) (l.map (·.2))

def dprod (l : List (Nat × Nat)) : Nat := (l.map (·.1)).prod

theorem pf_cons (d s : Nat) (l : List (Nat × Nat)) (k : Nat) :
    pf ((d, s) :: l) k = k / dprod l * s + pf l (k % dprod l) := by
  simp [pf, unrank, posN, dprod]

theorem dprod_cons (d s : Nat) (l : List (Nat × Nat)) : dprod ((d, s) :: l) = d * dprod l := by
  simp [dprod]

theorem dprod_append (l1 l2 : List (Nat × Nat)) : dprod (l1 ++ l2) = dprod l1 * dprod l2 := by
  simp [dprod]

theorem pf_append (l1 l2 : List (Nat × Nat)) (k : Nat) :
    pf (l1 ++ l2) k = pf l1 (k / dprod l2) + pf l2 (if l1 = [] then k else k % dprod l2) := by
  induction l1 generalizing k with
  | nil => simp [pf, unrank, posN]
  | cons a l1 ih =>
    obtain ⟨d, s⟩ := a
    rw [List.cons_append, pf_cons, pf_cons, ih, dprod_append]
    have e1 : k / (dprod l1 * dprod l2) = k / dprod l2 / dprod l1 := by
      rw [Nat.div_div_eq_div_mul, Nat.mul_comm]
    have e2 : k % (dprod l1 * dprod l2) / dprod l2 = k / dprod l2 % dprod l1 :=
      Nat.mod_mul_left_div_self _ _ _
    have e3 : k % (dprod l1 * dprod l2) % dprod l2 = k % dprod l2 :=
      Nat.mod_mod_of_dvd _ (Nat.dvd_mul_left _ _)
    rw [e1, e2]
    by_cases h : l1 = []
    · subst h
      simp [dprod]
      ring
    · simp [h, e3]; ring

theorem pf_append' (l1 l2 : List (Nat × Nat)) (k : Nat) (h : k < dprod (l1 ++ l2)) :
    pf (l1 ++ l2) k = pf l1 (k / dprod l2) + pf l2 (k % dprod l2) := by
  rw [pf_append]
  by_cases hl : l1 = []
  · subst hl
    have : k < dprod l2 := by simpa using h
    rw [if_pos rfl, Nat.mod_eq_of_lt this]
  · rw [if_neg hl]

theorem pf_zero {l : List (Nat × Nat)} (h : ∀ p ∈ l, p.2 = 0) (k : Nat) : pf l k = 0 := by
  unfold pf
  apply allZero_posN
  simp only [allZero, List.all_eq_true, List.mem_map, beq_iff_eq]
  rintro s ⟨p, hp, rfl⟩
  exact h p hp

/-- A group of axes laid out contiguously with unit `u`. -/
def Lin (l : List (Nat × Nat)) (u : Nat) : Prop := ∀ k, k < dprod l → pf l k = k * u

theorem Lin.nil (u : Nat) : Lin [] u := by
  intro k hk
  have : k = 0 := by simpa [dprod] using hk
  subst this; simp [pf, unrank, posN]

theorem Lin.cons {d s u : Nat} {l : List (Nat × Nat)} (h : Lin l u) (hp : 0 < dprod l)
    (hs : d = 1 ∨ s = dprod l * u) : Lin ((d, s) :: l) u := by
  intro k hk
  rw [dprod_cons] at hk
  rw [pf_cons, h _ (Nat.mod_lt _ hp)]
  rcases hs with rfl | rfl
  · rw [Nat.one_mul] at hk
    rw [Nat.div_eq_of_lt hk, Nat.mod_eq_of_lt hk]; ring
  · have := Nat.div_add_mod k (dprod l)
    generalize k / dprod l = q at this ⊢
    generalize k % dprod l = r at this ⊢
    rw [← this]; ring

/-- Product of the extents of the moving axes, for a list of pairs. -/
def nzp (l : List (Nat × Nat)) : Nat := (l.map fun p => if p.2 = 0 then 1 else p.1).prod

theorem nzp_append (l1 l2 : List (Nat × Nat)) : nzp (l1 ++ l2) = nzp l1 * nzp l2 := by
  simp [nzp]

theorem nzp_zip (shape strides : List Nat) (h : shape.length = strides.length) :
    nzp (shape.zip strides) = nzProd shape strides := by
  induction shape generalizing strides with
  | nil => simp [nzp, nzProd]
  | cons d ds ih =>
    cases strides with
    | nil => simp at h
    | cons s ss =>
      have := ih ss (by simpa using h)
      simp only [nzp] at this
      simp [nzp, nzProd, this]

/-- Axes are nonempty, and those of extent one do not move. -/
def Ok (l : List (Nat × Nat)) : Prop := ∀ p ∈ l, 0 < p.1 ∧ (p.1 = 1 → p.2 = 0)

theorem Ok.dprod_pos {l : List (Nat × Nat)} (h : Ok l) : 0 < dprod l := by
  induction l with
  | nil => simp [dprod]
  | cons a l ih =>
    obtain ⟨d, s⟩ := a
    rw [dprod_cons]
    exact Nat.mul_pos (h (d, s) (by simp)).1 (ih fun p hp => h p (by simp [hp]))

theorem Ok.append {l1 l2 : List (Nat × Nat)} : Ok (l1 ++ l2) ↔ Ok l1 ∧ Ok l2 := by
  simp only [Ok, List.mem_append]
  constructor
  · intro h; exact ⟨fun p hp => h p (Or.inl hp), fun p hp => h p (Or.inr hp)⟩
  · rintro ⟨h1, h2⟩ p (hp | hp)
    · exact h1 p hp
    · exact h2 p hp

theorem takeZero_spec (l : List (Nat × Nat)) :
    ∃ g, l = g ++ (takeZero l).2 ∧ (∀ p ∈ g, p.2 = 0) ∧ dprod g = (takeZero l).1 ∧
      ∀ p ∈ (takeZero l).2.head?, p.2 ≠ 0 := by
  fun_induction takeZero l with
  | case1 d l r ih =>
    obtain ⟨g, h1, h2, h3, h4⟩ := ih
    refine ⟨(d, 0) :: g, ?_, ?_, ?_, h4⟩
    · simp only [List.cons_append, r]; rw [← h1]
    · intro p hp
      rcases List.mem_cons.1 hp with rfl | hp
      · rfl
      · exact h2 p hp
    · rw [dprod_cons, h3]
  | case2 l h =>
    refine ⟨[], rfl, by simp, rfl, ?_⟩
    intro p hp h0
    cases l with
    | nil => simp at hp
    | cons a l =>
      simp at hp
      subst hp
      obtain ⟨d, s⟩ := a
      simp at h0
      subst h0
      exact h d l rfl

theorem fillZero_spec (m m2 : Nat) (ds : List Nat) (hm : m2 ≤ m) :
    ∃ h, ds = h ++ (fillZero m m2 ds).2.2 ∧ h.length = (fillZero m m2 ds).1 ∧
      (fillZero m m2 ds).2.1 = m2 * h.prod ∧ (fillZero m m2 ds).2.1 ≤ m ∧
      ∀ d ∈ (fillZero m m2 ds).2.2.head?, m < (fillZero m m2 ds).2.1 * d := by
  induction ds generalizing m2 with
  | nil => exact ⟨[], by simp [fillZero], by simp [fillZero], by simp [fillZero],
      by simpa [fillZero] using hm, by simp [fillZero]⟩
  | cons d ds ih =>
    unfold fillZero
    split
    · rename_i hc
      obtain ⟨h, h1, h2, h3, h4, h5⟩ := ih (m2 * d) hc
      exact ⟨d :: h, by simp only [List.cons_append]; rw [← h1], by simp [h2],
        by simp only [h3, List.prod_cons]; ring, h4, h5⟩
    · rename_i hc
      exact ⟨[], rfl, rfl, by simp, hm, by simp; omega⟩

theorem skipOnes_spec (l : List (Nat × Nat)) :
    ∃ g, l = g ++ skipOnes l ∧ ∀ p ∈ g, p.1 = 1 := by
  fun_induction skipOnes l with
  | case1 s l ih =>
    obtain ⟨g, h1, h2⟩ := ih
    exact ⟨(1, s) :: g, by simp only [List.cons_append]; rw [← h1], by
      intro p hp
      rcases List.mem_cons.1 hp with rfl | hp
      · rfl
      · exact h2 p hp⟩
  | case2 l h => exact ⟨[], rfl, by simp⟩

theorem Lin.ones {g l : List (Nat × Nat)} {u : Nat} (h : Lin l u) (hp : 0 < dprod l)
    (hg : ∀ p ∈ g, p.1 = 1) : Lin (g ++ l) u ∧ dprod (g ++ l) = dprod l := by
  induction g with
  | nil => exact ⟨h, rfl⟩
  | cons a g ih =>
    obtain ⟨d, s⟩ := a
    obtain ⟨h1, h2⟩ := ih fun p hp => hg p (by simp [hp])
    have hd : d = 1 := hg (d, s) (by simp)
    subst hd
    refine ⟨h1.cons (by omega) (Or.inl rfl), ?_⟩
    rw [List.cons_append, dprod_cons, h2]; simp

theorem takeContig_spec (d s : Nat) (l : List (Nat × Nat)) (hok : Ok ((d, s) :: l)) (hs0 : 0 < s) :
    ∃ g, (d, s) :: l = g ++ (takeContig d s l).2.2 ∧ dprod g = (takeContig d s l).1 ∧
      Lin g (takeContig d s l).2.1 ∧ s * d = (takeContig d s l).1 * (takeContig d s l).2.1 ∧
      g ≠ [] ∧ 0 < (takeContig d s l).2.1 ∧ ∀ p ∈ g, p.1 ≠ 1 → p.2 ≠ 0 := by
  fun_induction takeContig d s l with
  | case1 d s l h =>
    obtain ⟨g, h1, h2⟩ := skipOnes_spec l
    rw [h, List.append_nil] at h1
    subst h1
    have := Lin.ones (l := []) (u := s) (Lin.nil s) (by simp [dprod]) h2
    rw [List.append_nil] at this
    refine ⟨(d, s) :: l, by simp, by rw [dprod_cons, this.2]; simp [dprod], ?_, by ring, by simp,
      hs0, ?_⟩
    · apply this.1.cons (by rw [this.2]; simp [dprod])
      right; rw [this.2]; simp [dprod]
    · intro p hp hp1
      rcases List.mem_cons.1 hp with rfl | hp
      · exact Nat.ne_of_gt hs0
      · exact absurd (h2 p hp) hp1
  | case2 d l d' s' l' h r ih =>
    obtain ⟨o, h1, h2⟩ := skipOnes_spec l
    rw [h] at h1
    have hok' : Ok ((d', s') :: l') := fun p hp => hok p (by
      rw [h1]; exact List.mem_cons_of_mem _ (List.mem_append_right _ hp))
    obtain ⟨g, g1, g2, g3, g4, g5, g6, g7⟩ := ih hok' (Nat.pos_of_mul_pos_left hs0)
    have gp : 0 < dprod g := by
      have : Ok (g ++ (takeContig d' s' l').2.2) := by rw [← g1]; exact hok'
      exact (Ok.append.1 this).1.dprod_pos
    have hl := Lin.ones g3 gp h2
    have hs : d' * s' = dprod g * (takeContig d' s' l').2.1 := by rw [g2, ← g4]; ring
    refine ⟨(d, d' * s') :: (o ++ g), ?_, ?_, ?_, ?_, by simp, g6, ?_⟩
    · simp only [List.cons_append, List.append_assoc, r]; rw [← g1, ← h1]
    · rw [dprod_cons, hl.2, g2]
    · apply hl.1.cons (by omega)
      right; rw [hl.2]; exact hs
    · show d' * s' * d = d * (takeContig d' s' l').1 * (takeContig d' s' l').2.1
      rw [hs, g2]; ring
    · intro p hp hp1
      rcases List.mem_cons.1 hp with rfl | hp
      · exact Nat.ne_of_gt hs0
      · rcases List.mem_append.1 hp with hp | hp
        · exact absurd (h2 p hp) hp1
        · exact g7 p hp hp1
  | case3 d s l d' s' l' h hne =>
    obtain ⟨o, h1, h2⟩ := skipOnes_spec l
    rw [h] at h1
    have := Lin.ones (l := []) (u := s) (Lin.nil s) (by simp [dprod]) h2
    rw [List.append_nil] at this
    refine ⟨(d, s) :: o, by rw [h1]; simp, by rw [dprod_cons, this.2]; simp [dprod], ?_, by ring,
      by simp, hs0, ?_⟩
    · apply this.1.cons (by rw [this.2]; simp [dprod])
      right; rw [this.2]; simp [dprod]
    · intro p hp hp1
      rcases List.mem_cons.1 hp with rfl | hp
      · exact Nat.ne_of_gt hs0
      · exact absurd (h2 p hp) hp1

theorem nzp_eq_dprod {g : List (Nat × Nat)} (h1 : Ok g) (h2 : ∀ p ∈ g, p.1 ≠ 1 → p.2 ≠ 0) :
    nzp g = dprod g := by
  unfold nzp dprod
  congr 1
  apply List.map_congr_left
  intro p hp
  by_cases h : p.1 = 1
  · simp [h, (h1 p hp).2 h]
  · simp [h2 p hp h]

theorem nzp_zero {g : List (Nat × Nat)} (h : ∀ p ∈ g, p.2 = 0) : nzp g = 1 := by
  unfold nzp
  have : (g.map fun p => if p.2 = 0 then 1 else p.1) = g.map fun _ => 1 :=
    List.map_congr_left fun p hp => by simp [h p hp]
  rw [this]
  simp

theorem fillContig_spec (n n2 tot : Nat) (ds : List Nat) (hn : n2 ≤ n) :
    ∃ h, ds = h ++ (fillContig n n2 tot ds).2.2.2 ∧
      (fillContig n n2 tot ds).1.length = h.length ∧
      (fillContig n n2 tot ds).2.1 = n2 * h.prod ∧ (fillContig n n2 tot ds).2.1 ≤ n ∧
      (∀ d ∈ (fillContig n n2 tot ds).2.2.2.head?, n < (fillContig n n2 tot ds).2.1 * d) ∧
      ∀ u, 0 < u → 0 < h.prod → tot = h.prod * u →
        Lin (h.zip (fillContig n n2 tot ds).1) u ∧ Ok (h.zip (fillContig n n2 tot ds).1) ∧
          nzp (h.zip (fillContig n n2 tot ds).1) = h.prod := by
  induction ds generalizing n2 tot with
  | nil =>
    exact ⟨[], by simp [fillContig], by simp [fillContig], by simp [fillContig],
      by simpa [fillContig] using hn, by simp [fillContig],
      fun u _ _ _ => ⟨Lin.nil u, by simp [Ok], by simp [nzp]⟩⟩
  | cons d ds ih =>
    unfold fillContig
    split
    · rename_i hc
      split
      · rename_i h1
        subst h1
        obtain ⟨h, a1, a2, a3, a4, a5, a6⟩ := ih n2 tot hn
        refine ⟨1 :: h, by simp only [List.cons_append]; rw [← a1], by simp [a2],
          by simp only [a3, List.prod_cons]; ring, a4, a5, ?_⟩
        intro u hu hp ht
        simp only [List.prod_cons, Nat.one_mul] at hp ht
        obtain ⟨b1, b2, b3⟩ := a6 u hu hp ht
        simp only [List.zip_cons_cons, List.prod_cons, Nat.one_mul]
        refine ⟨b1.cons b2.dprod_pos (Or.inl rfl), ?_, ?_⟩
        · intro p hp
          rcases List.mem_cons.1 hp with rfl | hp
          · simp
          · exact b2 p hp
        · rw [← b3]; simp [nzp]
      · rename_i h1
        obtain ⟨h, a1, a2, a3, a4, a5, a6⟩ := ih (n2 * d) (tot / d) hc
        refine ⟨d :: h, by simp only [List.cons_append]; rw [← a1], by simp [a2],
          by simp only [a3, List.prod_cons]; ring, a4, a5, ?_⟩
        intro u hu hp ht
        rw [List.prod_cons] at hp ht
        have hd : 0 < d := Nat.pos_of_mul_pos_right hp
        have hhp : 0 < h.prod := Nat.pos_of_mul_pos_left hp
        have htd : tot / d = h.prod * u := by
          rw [ht, Nat.mul_assoc, Nat.mul_div_cancel_left _ hd]
        obtain ⟨b1, b2, b3⟩ := a6 u hu hhp htd
        simp only [List.zip_cons_cons, List.prod_cons]
        have hdp : dprod (h.zip (fillContig n (n2 * d) (tot / d) ds).1) = h.prod := by
          unfold dprod
          rw [List.map_fst_zip (by omega)]
        refine ⟨b1.cons b2.dprod_pos (Or.inr (by rw [hdp]; exact htd)), ?_, ?_⟩
        · intro p hp
          rcases List.mem_cons.1 hp with rfl | hp
          · exact ⟨hd, fun h => absurd h h1⟩
          · exact b2 p hp
        · have hne : tot / d ≠ 0 := by
            rw [htd]; exact Nat.ne_of_gt (Nat.mul_pos hhp hu)
          simp only [nzp, List.map_cons, List.prod_cons] at b3 ⊢
          rw [b3]; simp only [if_neg hne]
    · rename_i hc
      exact ⟨[], rfl, rfl, by simp, hn, by simp; omega,
        fun u _ _ _ => ⟨Lin.nil u, by simp [Ok], by simp [nzp]⟩⟩

/-- Two axis lists show the same offsets in row-major order. -/
structure Same (l l' : List (Nat × Nat)) : Prop where
  prod : dprod l = dprod l'
  pf : ∀ k, k < dprod l → pf l k = pf l' k
  nz : nzp l = nzp l'

theorem Same.append {a a' b b' : List (Nat × Nat)} (h1 : Same a a') (h2 : Same b b')
    (hb : 0 < dprod b) : Same (a ++ b) (a' ++ b') where
  prod := by rw [dprod_append, dprod_append, h1.prod, h2.prod]
  pf := fun k hk => by
    have hk' : k < dprod (a' ++ b') := by
      rw [dprod_append, ← h1.prod, ← h2.prod, ← dprod_append]; exact hk
    rw [pf_append' _ _ _ hk, pf_append' _ _ _ hk', ← h2.prod,
      h2.pf _ (Nat.mod_lt _ hb), h1.pf]
    rw [dprod_append] at hk
    exact (Nat.div_lt_iff_lt_mul hb).2 hk
  nz := by rw [nzp_append, nzp_append, h1.nz, h2.nz]

theorem zip_replicate_zero (h : List Nat) : ∀ p ∈ h.zip (List.replicate h.length 0), p.2 = 0 := by
  intro p hp
  have := List.of_mem_zip hp
  exact List.eq_of_mem_replicate this.2

theorem dprod_zip (h t : List Nat) (hl : h.length = t.length) : dprod (h.zip t) = h.prod := by
  unfold dprod
  rw [List.map_fst_zip (by omega)]

/-- Nothing is left over when both products agree. -/
theorem nil_of_stop {rest : List Nat} {n n2 : Nat} (h : ∀ d ∈ rest.head?, n < n2 * d)
    (hn : n2 = n) (hp : rest.prod = 1) : rest = [] := by
  cases rest with
  | nil => rfl
  | cons d ds =>
    have h1 := h d (by simp)
    rw [List.prod_cons] at hp
    have : d = 1 := Nat.eq_one_of_mul_eq_one_right hp
    subst this
    omega

theorem reshapeLoop_spec (l : List (Nat × Nat)) (dims r : List Nat) (hok : Ok l)
    (hp : dprod l = dims.prod) (hr : reshapeLoop l dims = some r) :
    r.length = dims.length ∧ Same l (dims.zip r) ∧ Ok (dims.zip r) := by
  induction hn : l.length using Nat.strongRecOn generalizing l dims r with
  | ind N ih =>
  subst hn
  have hdpos := hok.dprod_pos
  unfold reshapeLoop at hr
  simp only at hr
  obtain ⟨g, g1, g2, g3, g4⟩ := takeZero_spec l
  set z := takeZero l with hz
  have hgok : Ok g ∧ Ok z.2 := Ok.append.1 (g1 ▸ hok)
  have hz1 : 1 ≤ z.1 := by rw [← g3]; exact hgok.1.dprod_pos
  obtain ⟨f, f1, f2, f3, f4, f5⟩ := fillZero_spec z.1 1 dims hz1
  set fz := fillZero z.1 1 dims with hfz
  by_cases hlt : fz.2.1 < z.1
  · simp [hlt] at hr
  rw [if_neg hlt] at hr
  have hfeq : fz.2.1 = z.1 := by omega
  have hfp : f.prod = dprod g := by rw [g3, ← hfeq, f3]; simp
  -- the zero group
  have sameZ : Same g (f.zip (List.replicate fz.1 0)) := by
    rw [← f2]
    refine ⟨by rw [dprod_zip _ _ (by simp), hfp], fun k _ => ?_, ?_⟩
    · rw [pf_zero g2, pf_zero (zip_replicate_zero f)]
    · rw [nzp_zero g2, nzp_zero (zip_replicate_zero f)]
  have fpos : ∀ d ∈ f, 0 < d := fun d hd => by
    apply pos_of_mem_prod (l := f) _ hd
    rw [hfp]; exact hgok.1.dprod_pos
  have okZ : Ok (f.zip (List.replicate fz.1 0)) := by
    intro p hp
    rw [← f2] at hp
    exact ⟨fpos p.1 (List.of_mem_zip hp).1, fun _ => zip_replicate_zero f p hp⟩
  have hprest : dprod z.2 = fz.2.2.prod := by
    have e1 : dprod l = dprod g * dprod z.2 := by conv_lhs => rw [g1, dprod_append]
    have e2 : dims.prod = f.prod * fz.2.2.prod := by conv_lhs => rw [f1, List.prod_append]
    rw [e1, e2, hfp] at hp
    exact Nat.eq_of_mul_eq_mul_left hgok.1.dprod_pos hp
  cases hz2 : z.2 with
  | nil =>
    have hr' : some (List.replicate fz.1 0) = some r := by
      revert hr
      split
      · exact id
      · rename_i heq; rw [hz2] at heq; simp at heq
    simp only [Option.some.injEq] at hr'
    rw [hz2] at hprest
    have hnil : fz.2.2 = [] := nil_of_stop f5 hfeq (by rw [← hprest]; simp [dprod])
    rw [hnil, List.append_nil] at f1
    rw [hz2, List.append_nil] at g1
    subst hr'
    rw [← f1] at f2 sameZ okZ
    refine ⟨by simp [f2], ?_, okZ⟩
    rw [g1]; exact sameZ
  | cons a l' =>
    obtain ⟨d, s⟩ := a
    have hs0 : 0 < s := by
      have := g4 (d, s) (by rw [hz2]; simp)
      exact Nat.pos_of_ne_zero this
    have hokz : Ok ((d, s) :: l') := hz2 ▸ hgok.2
    obtain ⟨c, c1, c2, c3, c4, c5, c6, c7⟩ := takeContig_spec d s l' hokz hs0
    have hcok : Ok c ∧ Ok (takeContig d s l').2.2 := Ok.append.1 (c1 ▸ hokz)
    have hr' : (if (fillContig (takeContig d s l').1 1 (s * d) fz.2.2).2.1 < (takeContig d s l').1
        then none else
        if (takeContig d s l').2.2 = [] then
          some (List.replicate fz.1 0 ++ (fillContig (takeContig d s l').1 1 (s * d) fz.2.2).1)
        else (reshapeLoop (takeContig d s l').2.2
            (fillContig (takeContig d s l').1 1 (s * d) fz.2.2).2.2.2).map
          fun r => List.replicate fz.1 0 ++
            (fillContig (takeContig d s l').1 1 (s * d) fz.2.2).1 ++ r) = some r := by
      revert hr
      split
      · rename_i heq; rw [hz2] at heq; simp at heq
      · rename_i d1 s1 l1 heq
        rw [hz2] at heq
        simp only [List.cons.injEq, Prod.mk.injEq] at heq
        obtain ⟨⟨rfl, rfl⟩, rfl⟩ := heq
        exact id
    clear hr
    set tc := takeContig d s l' with htc
    have htc1 : 1 ≤ tc.1 := by rw [← c2]; exact hcok.1.dprod_pos
    obtain ⟨h, h1, h2, h3, h4, h5, h6⟩ := fillContig_spec tc.1 1 (s * d) fz.2.2 htc1
    set fc := fillContig tc.1 1 (s * d) fz.2.2 with hfc
    by_cases hlt2 : fc.2.1 < tc.1
    · simp [hlt2] at hr'
    rw [if_neg hlt2] at hr'
    have hfceq : fc.2.1 = tc.1 := by omega
    have hhp : h.prod = dprod c := by rw [c2, ← hfceq, h3]; simp
    obtain ⟨k1, k2, k3⟩ := h6 tc.2.1 c6 (by rw [hhp]; exact hcok.1.dprod_pos)
      (by rw [hhp, c2]; exact c4)
    have hzl : dprod (h.zip fc.1) = h.prod := dprod_zip _ _ h2.symm
    have sameC : Same c (h.zip fc.1) := by
      refine ⟨by rw [hzl, hhp], fun k hk => ?_, ?_⟩
      · rw [c3 k hk, k1 k (by rw [hzl, hhp]; exact hk)]
      · rw [k3, nzp_eq_dprod hcok.1 c7, hhp]
    have hprest2 : dprod tc.2.2 = fc.2.2.2.prod := by
      have e1 : dprod z.2 = dprod c * dprod tc.2.2 := by rw [hz2, c1, dprod_append]
      have e2 : fz.2.2.prod = h.prod * fc.2.2.2.prod := by conv_lhs => rw [h1, List.prod_append]
      rw [e1, e2, hhp] at hprest
      exact Nat.eq_of_mul_eq_mul_left hcok.1.dprod_pos hprest
    have hdims : dims = f ++ (h ++ fc.2.2.2) := by rw [← h1]; exact f1
    have hl : l = g ++ (c ++ tc.2.2) := by rw [← c1, ← hz2]; exact g1
    by_cases hnil : tc.2.2 = []
    · rw [if_pos hnil] at hr'
      simp only [Option.some.injEq] at hr'
      rw [hnil] at hprest2
      have hnil2 : fc.2.2.2 = [] := nil_of_stop h5 hfceq (by rw [← hprest2]; simp [dprod])
      rw [hnil2, List.append_nil] at hdims
      rw [hnil, List.append_nil] at hl
      subst hr'
      have hzip : dims.zip (List.replicate fz.1 0 ++ fc.1) =
          f.zip (List.replicate fz.1 0) ++ h.zip fc.1 := by
        rw [hdims]; exact List.zip_append (by simp [f2])
      refine ⟨by rw [hdims]; simp [f2, h2], ?_, ?_⟩
      · rw [hzip, hl]; exact sameZ.append sameC hcok.1.dprod_pos
      · rw [hzip]; exact Ok.append.2 ⟨okZ, k2⟩
    · rw [if_neg hnil, Option.map_eq_some_iff] at hr'
      obtain ⟨r', hr1, hr2⟩ := hr'
      have hlen : tc.2.2.length < l.length := by
        rw [hl]; simp only [List.length_append]
        have : 0 < c.length := List.length_pos_of_ne_nil c5
        omega
      obtain ⟨i1, i2, i3⟩ := ih _ hlen tc.2.2 fc.2.2.2 r' hcok.2 hprest2 hr1 rfl
      subst hr2
      have hzip : dims.zip (List.replicate fz.1 0 ++ fc.1 ++ r') =
          f.zip (List.replicate fz.1 0) ++ (h.zip fc.1 ++ fc.2.2.2.zip r') := by
        rw [hdims, List.append_assoc, List.zip_append (by simp [f2]), List.zip_append h2.symm]
      refine ⟨by rw [hdims]; simp [f2, h2, i1], ?_, ?_⟩
      · rw [hzip, hl]
        refine sameZ.append (sameC.append i2 hcok.2.dprod_pos) ?_
        rw [dprod_append]; exact Nat.mul_pos hcok.1.dprod_pos hcok.2.dprod_pos
      · rw [hzip]; exact Ok.append.2 ⟨okZ, Ok.append.2 ⟨k2, i3⟩⟩

variable {W : Type}

theorem pf_zip {shape strides : List Nat} (h : strides.length = shape.length) (k : Nat) :
    pf (shape.zip strides) k = posN (unrank shape k) strides := by
  unfold pf
  rw [List.map_fst_zip (by omega), List.map_snd_zip (by omega)]

theorem ok_of_wf {e : Elms W} (h : WF e) (hp : 0 < e.shape.prod) : Ok (e.shape.zip e.strides) := by
  intro p hpm
  refine ⟨pos_of_mem_prod hp (List.of_mem_zip hpm).1, fun h1 => ?_⟩
  obtain ⟨i, hi, hpi⟩ := List.getElem_of_mem hpm
  rw [List.getElem_zip] at hpi
  have hi1 : i < e.shape.length := by simp at hi; omega
  have hi2 : i < e.strides.length := by simp at hi; omega
  have := h.one i (by rw [List.getElem?_eq_getElem hi1]; rw [← hpi] at h1; exact congrArg some h1)
  rw [List.getElem?_eq_getElem hi2] at this
  rw [← hpi]; simpa using this

theorem one_of_ok {shape strides : List Nat} (hl : strides.length = shape.length)
    (h : Ok (shape.zip strides)) (k : Nat) (hk : shape[k]? = some 1) : strides[k]? = some 0 := by
  have hk1 : k < shape.length := by
    rcases Nat.lt_or_ge k shape.length with h1 | h1
    · exact h1
    · rw [List.getElem?_eq_none h1] at hk; simp at hk
  have hk2 : k < strides.length := by omega
  rw [List.getElem?_eq_getElem hk1] at hk
  rw [List.getElem?_eq_getElem hk2]
  have hm : (shape[k], strides[k]) ∈ shape.zip strides := by
    have hz : k < (shape.zip strides).length := by simp; omega
    have := List.getElem_mem hz
    rwa [List.getElem_zip] at this
  have := (h _ hm).2 (by simpa using hk)
  simpa using this

/-- Same buffer read in the same order through another shape. -/
theorem view_spec {e : Elms W} (h : WF e) {S st : List Nat} (hl : st.length = S.length)
    (hone : ∀ k : Nat, S[k]? = some 1 → st[k]? = some 0) (hprod : e.shape.prod = S.prod)
    (hpos : ∀ k, k < S.prod → posN (unrank S k) st = posN (unrank e.shape k) e.strides)
    (hnz : nzProd S st = nzProd e.shape e.strides) :
    WF { e with shape := S, strides := st } ∧
      ∀ idx idx', InBounds S idx → InBounds e.shape idx' →
        rowMajor S idx = rowMajor e.shape idx' →
        value { e with shape := S, strides := st } idx = value e idx' := by
  have key : ∀ idx idx', InBounds S idx → InBounds e.shape idx' →
        rowMajor S idx = rowMajor e.shape idx' → posN idx st = posN idx' e.strides := by
    intro idx idx' h1 h2 h3
    have := hpos _ (rowMajor_lt h1)
    rw [unrank_rowMajor h1, h3, unrank_rowMajor h2] at this
    exact this
  have hwf : WF { e with shape := S, strides := st } := by
    refine ⟨hl, hone, ?_, by rw [← h.size]; exact hnz, ?_⟩
    · intro idx hi
      have hlt : rowMajor S idx < e.shape.prod := by rw [hprod]; exact rowMajor_lt hi
      rw [show posN idx st = _ from key idx _ hi (unrank_inBounds hlt) (rowMajor_unrank hlt).symm]
      exact h.bnd _ (unrank_inBounds hlt)
    · intro hp k hk
      obtain ⟨idx', h1, h2⟩ := h.onto (by rw [hprod]; exact hp) k hk
      have hlt : rowMajor e.shape idx' < S.prod := by rw [← hprod]; exact rowMajor_lt h1
      exact ⟨unrank S (rowMajor e.shape idx'), unrank_inBounds hlt, by
        rw [← h2]; exact key _ _ (unrank_inBounds hlt) h1 (rowMajor_unrank hlt)⟩
  refine ⟨hwf, fun idx idx' h1 h2 h3 => ?_⟩
  rw [hwf.value_eq' h1, h.value_eq' h2]
  rw [show posN idx st = _ from key idx idx' h1 h2 h3]
  rfl

theorem reshape_spec {e : Elms W} (h : WF e) {S : List Nat} (hprod : e.shape.prod = S.prod)
    (hne : 0 < S.prod ∨ e.isContiguous = true) :
    ∃ r, reshape e S = some r ∧ WF r ∧ r.shape = S ∧
      ∀ idx idx', InBounds S idx → InBounds e.shape idx' →
        rowMajor S idx = rowMajor e.shape idx' → value r idx = value e idx' := by
  unfold reshape
  split
  · rename_i heq
    subst heq
    exact ⟨e, rfl, h, rfl, fun idx idx' h1 h2 h3 => by rw [rowMajor_inj h1 h2 h3]⟩
  · unfold reshapeStrides
    split
    · rename_i hc
      have hs := (contiguous_iff h.len).1 hc
      refine ⟨_, rfl, ?_⟩
      obtain ⟨h1, h2⟩ := view_spec (st := defaultStrides S) h (length_defaultStrides S)
        (defaultStrides_one S) hprod (by
          intro k hk
          have hk' : k < e.shape.prod := by omega
          rw [hs, posN_default (unrank_inBounds hk), posN_default (unrank_inBounds hk'),
            rowMajor_unrank hk, rowMajor_unrank hk'])
        (by rw [hs, nzProd_default, nzProd_default, hprod])
      exact ⟨h1, rfl, h2⟩
    · rename_i hc
      rcases hne with hpos | hpos
      swap
      · exact absurd hpos hc
      have hpos' : 0 < e.shape.prod := by omega
      split
      · rename_i hle
        exfalso
        apply hc
        rw [contiguous_iff h.len]
        have hp1 : e.shape.prod = 1 := by omega
        have hall : ∀ d ∈ e.shape, d = 1 := by
          generalize e.shape = sh at hp1
          induction sh with
          | nil => simp
          | cons d ds ih =>
            rw [List.prod_cons] at hp1
            intro x hx
            rcases List.mem_cons.1 hx with rfl | hx
            · exact Nat.eq_one_of_mul_eq_one_right hp1
            · exact ih (Nat.eq_one_of_mul_eq_one_left hp1) x hx
        apply List.ext_getElem?
        intro k
        by_cases hk : k < e.shape.length
        · have h1 : e.shape[k]? = some 1 := by
            rw [List.getElem?_eq_getElem hk, hall _ (List.getElem_mem hk)]
          rw [h.one k h1, defaultStrides_one _ k h1]
        · rw [List.getElem?_eq_none (by rw [h.len]; omega),
            List.getElem?_eq_none (by rw [length_defaultStrides]; omega)]
      · rw [Option.bind_some]
        cases hr : reshapeLoop (e.shape.zip e.strides) S with
        | none =>
          obtain ⟨l, hl, hlen, hv⟩ := h.wideNums_eq
          refine ⟨fromWideNums S l, by simp [hl], wf_fromWideNums S l (by rw [hlen, hprod]), rfl, ?_⟩
          intro idx idx' h1 h2 h3
          rw [value_fromWideNums, h3]
          unfold value
          rw [hl]; rfl
        | some st =>
          obtain ⟨h1, h2, h3⟩ := reshapeLoop_spec _ S st (ok_of_wf h hpos')
            (by rw [dprod_zip _ _ h.len.symm, hprod]) hr
          refine ⟨_, rfl, ?_⟩
          obtain ⟨v1, v2⟩ := view_spec (st := st) h h1 (one_of_ok h1 h3) hprod (by
            intro k hk
            rw [← pf_zip h1, ← pf_zip h.len]
            exact (h2.pf k (by rw [dprod_zip _ _ h.len.symm, hprod]; exact hk)).symm)
            (by rw [← nzp_zip _ _ h1.symm, ← nzp_zip _ _ h.len.symm, h2.nz])
          exact ⟨v1, rfl, v2⟩

end Verif.Elems
