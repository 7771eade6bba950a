import Verif.ConvMatMul.Model
import Verif.ConvMatMul.Spec
import Verif.ConvTranspose.UpLemmas
import Verif.Rewrite.ArithSem

/-! # Both lowerings of Im2Col fill the matrix of the windows -/

namespace Verif.ConvMatMul

open Verif.Rewrite
open Verif.ConvTranspose (storeAt InZ inZ_cast inZ_toNat cast_toNat cast_inj)

variable {V : Type} [Inhabited V] {A : Alg V}

/-! ### Loops of stores -/

theorem storeAll_spec {ι : Type} {s : List ℕ} {tgt : ι → List ℤ} {val : ι → Option V} {f : List ℕ → V} :
    ∀ {l : List ι} {data : List V}, data.length = s.prod →
    (∀ i ∈ l, ∃ q, InBounds s q ∧ tgt i = q.map (fun (j : ℕ) => (j : ℤ)) ∧ val i = some (f q)) →
    ∃ data', storeAll s tgt val l data = some data' ∧ ∀ q, InBounds s q →
      ((∃ i ∈ l, tgt i = q.map (fun (j : ℕ) => (j : ℤ))) ∨ data.getD (rowMajor s q) default = f q →
        data'.getD (rowMajor s q) default = f q)
  | [], data, _, _ => ⟨data, rfl, fun q _ h => by simpa using h⟩
  | i :: l, data, hd, hb => by
    obtain ⟨t, ht, ht1, hv⟩ := hb i (by simp)
    have hz : InZ s (tgt i) := by rw [ht1]; exact inZ_cast.2 ht
    obtain ⟨data', h1, h2⟩ := storeAll_spec (tgt := tgt) (val := val) (f := f) (l := l)
      (data := data.set (rowMajor s t) (f t)) (by simpa using hd) fun j hj => hb j (by simp [hj])
    refine ⟨data', ?_, fun q hq h => h2 q hq ?_⟩
    · unfold storeAll
      rw [hv, Option.bind_some]
      unfold storeAt
      rw [if_pos hz, Option.bind_some, ht1, cast_toNat]
      exact h1
    · by_cases he : t = q
      · subst he
        right
        rw [List.getD_eq_getElem _ _ (by rw [List.length_set, hd]; exact rowMajor_lt ht)]
        simp
      · rcases h with ⟨j, hj, hjq⟩ | h
        · rcases List.mem_cons.1 hj with rfl | hj
          · exact absurd (cast_inj (ht1.symm.trans hjq)) he
          · exact .inl ⟨j, hj, hjq⟩
        · right
          have hne : rowMajor s t ≠ rowMajor s q := fun e => he (rowMajor_inj ht hq e)
          rw [List.getD_eq_getElem?_getD, List.getElem?_set_ne hne, ← List.getD_eq_getElem?_getD, h]

/-- A loop that stores a function of the target everywhere. -/
theorem storeAll_build {ι : Type} {s : List ℕ} {tgt : ι → List ℤ} {val : ι → Option V} {f : List ℕ → V}
    {l : List ι} {data : List V} (hd : data.length = s.prod)
    (h : ∀ i ∈ l, ∃ q, InBounds s q ∧ tgt i = q.map (fun (j : ℕ) => (j : ℤ)) ∧ val i = some (f q))
    (hs : ∀ q, InBounds s q → ∃ i ∈ l, tgt i = q.map (fun (j : ℕ) => (j : ℤ))) :
    ((storeAll s tgt val l data).map fun data => build s fun q => data.getD (rowMajor s q) default) =
      some (build s f) := by
  obtain ⟨d', h1, h2⟩ := storeAll_spec hd h
  rw [h1, Option.map_some]
  congr 1
  exact build_congr fun q hq => h2 q hq (.inl (hs q hq))

/-! ### Axes -/

/-- The axis of Im2Col agrees with that of the definition of Conv. -/
structure IRel (a : IAxis) (w : WinAx) : Prop where
  inp : a.inp = w.inp
  k : a.k = w.k
  s : a.s = w.s
  d : a.d = w.d
  pb : a.pb = w.pb
  out : a.out = w.out

theorem winAxis_rel {ap : String} {inp k s d pb pe : ℕ} {w : WinAx}
    (hap : ap ∈ ["NOTSET", "VALID", "SAME_UPPER", "SAME_LOWER"]) (hi : 0 < inp) (hk : 0 < k)
    (h : winAxis ap false inp k s d pb pe = some w) :
    IRel (i2cAxis ap inp k s d pb pe) w ∧ w.inp = inp ∧ w.k = k ∧ 0 < w.out ∧
      outExtent ap inp k s d pb pe = w.out := by
  unfold winAxis at h
  by_cases hs : s = 0
  · rw [if_pos hs] at h; cases h
  rw [if_neg hs] at h
  have hs : 0 < s := Nat.pos_of_ne_zero hs
  have hk1 : ((k - 1 : ℕ) : ℤ) = (k : ℤ) - 1 := by omega
  by_cases hsame : ap = "SAME_UPPER" ∨ ap = "SAME_LOWER"
  · rw [if_pos hsame] at h
    have hne : ap ≠ "NOTSET" ∧ ap ≠ "VALID" := by rcases hsame with rfl | rfl <;> decide
    have hout : 0 < (inp + s - 1) / s := Nat.div_pos (by omega) hs
    obtain ⟨o, ho⟩ : ∃ o, (inp + s - 1) / s = o := ⟨_, rfl⟩
    have ho1 : o * s ≤ inp + s - 1 := by rw [← ho]; exact Nat.div_mul_le_self _ _
    have ho2 : inp + s - 1 < (o + 1) * s := by
      rw [← ho]; exact Nat.lt_mul_of_div_lt (Nat.lt_succ_self _) hs
    have ho3 : ((inp : ℤ) + s - 1) / s = o := by
      rw [← ho]; push_cast; congr 1; omega
    rw [ho] at h hout
    obtain ⟨m, rfl⟩ : ∃ m, o = m + 1 := ⟨o - 1, by omega⟩
    have hm1 : m * s + s ≤ inp + s - 1 := by linarith [Nat.add_mul m 1 s]
    have hm2 : inp + s - 1 < m * s + s + s := by linarith [Nat.add_mul (m + 1) 1 s, Nat.add_mul m 1 s]
    simp only [Nat.add_sub_cancel] at h
    obtain ⟨e, he⟩ : ∃ e, (k - 1) * d = e := ⟨_, rfl⟩
    have heZ : ((k : ℤ) - 1) * d = e := by rw [← he]; push_cast; rw [hk1]
    rw [he] at h
    obtain ⟨g, hg⟩ : ∃ g, m * s = g := ⟨_, rfl⟩
    have hgZ : (((m + 1 : ℕ) : ℤ) - 1) * s = g := by rw [← hg]; push_cast; ring
    rw [hg] at h hm1 hm2
    have htot : max 0 ((g : ℤ) + (e + 1) - inp) = ((g + (e + 1) - inp : ℕ) : ℤ) := by omega
    have hdiv : ((inp : ℤ) + (g + (e + 1) - inp : ℕ) - (e + 1)) / s + 1 = ((m + 1 : ℕ) : ℤ) := by
      have h1 : ((inp : ℤ) + (g + (e + 1) - inp : ℕ) - (e + 1)) / s = m := by
        have hs' : (0 : ℤ) < s := by exact_mod_cast hs
        have hg' : (m : ℤ) * s = g := by exact_mod_cast hg
        apply le_antisymm
        · apply Int.lt_add_one_iff.1
          apply Int.ediv_lt_of_lt_mul hs'
          rw [add_mul, hg']
          omega
        · apply (Int.le_ediv_iff_mul_le hs').2
          rw [hg']
          omega
      rw [h1]
      push_cast
      ring
    have hpads : (i2cPads ap inp k s d pb pe).1 + (i2cPads ap inp k s d pb pe).2 = ((g + (e + 1) - inp : ℕ) : ℤ) ∧
        (i2cPads ap inp k s d pb pe).1 =
          (if ap = "SAME_UPPER" then (g + (e + 1) - inp) / 2 else (g + (e + 1) - inp) - (g + (e + 1) - inp) / 2 : ℕ) := by
      unfold i2cPads
      rw [if_neg hne.1, if_neg hne.2]
      unfold samePads
      simp only
      rw [ho3, heZ, hgZ, htot]
      by_cases hu : ap = "SAME_UPPER"
      · rw [if_pos hu, if_pos hu]
        refine ⟨by simp only; omega, by simp only; omega⟩
      · rw [if_neg hu, if_neg hu]
        refine ⟨by simp only; omega, by simp only; omega⟩
    cases h
    refine ⟨⟨rfl, rfl, rfl, rfl, ?_, ?_⟩, rfl, rfl, by simp, ?_⟩
    · exact hpads.2
    · unfold i2cAxis
      simp only
      rw [add_assoc (inp : ℤ), hpads.1, heZ, hdiv]
    · unfold outExtent
      rw [if_pos hsame, Int.tdiv_eq_ediv_of_nonneg (by omega), ← add_sub_assoc, ho3]
  · rw [if_neg hsame] at h
    simp only at h
    have key : ∀ pb pe : ℕ, (if inp + pb + pe < (k - 1) * d + 1 then none
          else some (⟨inp, k, s, d, pb, if false = true ∧ inp + pb ≤
            ((if false = true then (inp + pb + pe - ((k - 1) * d + 1) + s - 1) / s
              else (inp + pb + pe - ((k - 1) * d + 1)) / s) + 1 - 1) * s then
            (if false = true then (inp + pb + pe - ((k - 1) * d + 1) + s - 1) / s
              else (inp + pb + pe - ((k - 1) * d + 1)) / s) + 1 - 1 else
            (if false = true then (inp + pb + pe - ((k - 1) * d + 1) + s - 1) / s
              else (inp + pb + pe - ((k - 1) * d + 1)) / s) + 1⟩ : WinAx)) = some w →
        w.inp = inp ∧ w.k = k ∧ w.s = s ∧ w.d = d ∧ w.pb = pb ∧ 0 < w.out ∧
          ((inp : ℤ) + pb + pe - (((k : ℤ) - 1) * d + 1)) / s + 1 = w.out ∧
          ((inp : ℤ) + ((pb : ℤ) + pe - (((k : ℤ) - 1) * d + 1) + s)).tdiv s = w.out := by
      intro pb pe h
      by_cases hlt : inp + pb + pe < (k - 1) * d + 1
      · rw [if_pos hlt] at h; cases h
      rw [if_neg hlt] at h
      obtain ⟨e, he⟩ : ∃ e, (k - 1) * d = e := ⟨_, rfl⟩
      have heZ : ((k : ℤ) - 1) * d = e := by rw [← he]; push_cast; rw [hk1]
      rw [he] at h hlt
      have hw := (Option.some.inj h).symm
      subst hw
      rw [heZ]
      have h1 : ((inp : ℤ) + pb + pe - (e + 1)) / s + 1 = ((inp + pb + pe - (e + 1)) / s + 1 : ℕ) := by
        push_cast
        congr 2
        omega
      refine ⟨rfl, rfl, rfl, rfl, rfl, by simp, ?_, ?_⟩
      · simpa using h1
      · rw [Int.tdiv_eq_ediv_of_nonneg (by omega)]
        have : (inp : ℤ) + ((pb : ℤ) + pe - (e + 1) + s) = ((inp : ℤ) + pb + pe - (e + 1)) + 1 * s := by ring
        rw [this, Int.add_mul_ediv_right _ _ (by omega)]
        simpa using h1
    simp only [List.mem_cons, List.not_mem_nil, or_false] at hap
    push Not at hsame
    rcases hap with rfl | rfl | rfl | rfl
    · rw [if_neg (by decide : ¬ "NOTSET" = "VALID"), if_neg (by decide : ¬ "NOTSET" = "VALID")] at h
      obtain ⟨h1, h2, h3, h4, h5, h6, h7, h8⟩ := key pb pe h
      refine ⟨⟨h1.symm, h2.symm, h3.symm, h4.symm, ?_, ?_⟩, h1, h2, h6, ?_⟩
      · rw [h5]; unfold i2cAxis i2cPads; rw [if_pos rfl]
      · rw [← h7]; unfold i2cAxis i2cPads; rw [if_pos rfl]
      · rw [← h8]
        unfold outExtent
        rw [if_neg (by decide : ¬ ("NOTSET" = "SAME_UPPER" ∨ "NOTSET" = "SAME_LOWER")),
          if_neg (by decide : ¬ "NOTSET" = "VALID")]
    · rw [if_pos rfl, if_pos rfl] at h
      obtain ⟨h1, h2, h3, h4, h5, h6, h7, h8⟩ := key 0 0 h
      refine ⟨⟨h1.symm, h2.symm, h3.symm, h4.symm, ?_, ?_⟩, h1, h2, h6, ?_⟩
      · rw [h5]; unfold i2cAxis i2cPads; rw [if_neg (by decide : ¬ "VALID" = "NOTSET"), if_pos rfl]; rfl
      · rw [← h7]; unfold i2cAxis i2cPads; rw [if_neg (by decide : ¬ "VALID" = "NOTSET"), if_pos rfl]; rfl
      · rw [← h8]
        unfold outExtent
        rw [if_neg (by decide : ¬ ("VALID" = "SAME_UPPER" ∨ "VALID" = "SAME_LOWER")), if_pos rfl]
        simp
    · exact absurd rfl hsame.1
    · exact absurd rfl hsame.2

/-! ### Positions -/

theorem inIdx_winPos : ∀ {ia : List IAxis} {ax : List WinAx} {o k : List ℕ}, List.Forall₂ IRel ia ax →
    o.length = ax.length → k.length = ax.length →
    (inside ia (inIdx ia o k) ∧ winPos ax o k = some ((inIdx ia o k).map Int.toNat)) ∨
      (¬ inside ia (inIdx ia o k) ∧ winPos ax o k = none)
  | [], [], [], [], _, _, _ => by left; exact ⟨List.Forall₂.nil, rfl⟩
  | a :: ia, w :: ax, o :: os, k :: ks, h, ho, hk => by
    obtain ⟨hr, ht⟩ := List.forall₂_cons.1 h
    have ih := inIdx_winPos (o := os) (k := ks) ht (by simpa using ho) (by simpa using hk)
    have hc : (0 ≤ (o : ℤ) * a.s + (k : ℤ) * a.d - a.pb ∧ (o : ℤ) * a.s + (k : ℤ) * a.d - a.pb < a.inp) ↔
        (w.pb ≤ o * w.s + k * w.d ∧ o * w.s + k * w.d - w.pb < w.inp) := by
      rw [hr.s, hr.d, hr.pb, hr.inp]
      constructor
      · rintro ⟨h1, h2⟩
        have h1' : (w.pb : ℤ) ≤ ((o * w.s + k * w.d : ℕ) : ℤ) := by push_cast; linarith
        have h1'' : w.pb ≤ o * w.s + k * w.d := by exact_mod_cast h1'
        refine ⟨h1'', ?_⟩
        have h2' : ((o * w.s + k * w.d : ℕ) : ℤ) - w.pb < w.inp := by push_cast; linarith
        omega
      · rintro ⟨h1, h2⟩
        have e : (o : ℤ) * w.s + (k : ℤ) * w.d = ((o * w.s + k * w.d : ℕ) : ℤ) := by push_cast; ring
        rw [e]
        omega
    have htn : ((o : ℤ) * a.s + (k : ℤ) * a.d - a.pb).toNat = o * w.s + k * w.d - w.pb := by
      rw [hr.s, hr.d, hr.pb]
      have e : (o : ℤ) * w.s + (k : ℤ) * w.d = ((o * w.s + k * w.d : ℕ) : ℤ) := by push_cast; ring
      rw [e]
      omega
    unfold inIdx winPos inside
    rw [List.forall₂_cons]
    by_cases hcc : w.pb ≤ o * w.s + k * w.d ∧ o * w.s + k * w.d - w.pb < w.inp
    · rw [if_pos hcc]
      rcases ih with ⟨i1, i2⟩ | ⟨i1, i2⟩
      · left
        refine ⟨⟨hc.2 hcc, i1⟩, ?_⟩
        rw [i2, Option.map_some, List.map_cons, htn]
      · right
        refine ⟨fun h => i1 h.2, by rw [i2]; rfl⟩
    · rw [if_neg hcc]
      exact .inr ⟨fun h => hcc (hc.1 h.1), rfl⟩

theorem colIdx_eq : ∀ {ia : List IAxis} {ax : List WinAx} {o : List ℕ}, List.Forall₂ IRel ia ax →
    o.length = ax.length →
    (o.zip ia).foldr (fun p (acc : ℤ × ℤ) => (acc.1 + (p.1 : ℤ) * acc.2, acc.2 * p.2.out)) (0, 1) =
      ((rowMajor (ax.map WinAx.out) o : ℤ), ((ax.map WinAx.out).prod : ℤ))
  | [], [], [], _, _ => rfl
  | a :: ia, w :: ax, o :: os, h, ho => by
    obtain ⟨hr, ht⟩ := List.forall₂_cons.1 h
    have ih := colIdx_eq (o := os) ht (by simpa using ho)
    rw [List.zip_cons_cons, List.foldr_cons, ih, List.map_cons, List.prod_cons]
    simp only [rowMajor]
    rw [hr.out]
    push_cast
    ext
    · simp only; ring
    · simp only; ring

theorem rowSum : ∀ {ks k : List ℕ}, k.length = ks.length → ∀ acc : ℤ,
    (List.range ks.length).foldl (fun (p : ℤ) i => p + (k.getD i 0 : ℤ) * ((ks.drop (i + 1)).prod : ℤ)) acc =
      acc + rowMajor ks k
  | [], [], _, acc => by simp [rowMajor]
  | d :: ks, a :: k, h, acc => by
    rw [List.length_cons, List.range_succ_eq_map, List.foldl_cons, List.foldl_map]
    have := rowSum (ks := ks) (k := k) (by simpa using h) (acc + (a : ℤ) * (ks.prod : ℤ))
    simp only [List.getD_cons_zero, List.drop_succ_cons, List.drop_zero, List.getD_cons_succ, Nat.succ_eq_add_one]
    rw [this]
    simp only [rowMajor]
    push_cast
    ring

theorem foldl_mulZ : ∀ (ks : List ℕ) (c : ℤ), ks.foldl (fun (p : ℤ) (d : ℕ) => p * d) c = c * ks.prod
  | [], c => by simp
  | d :: ks, c => by
    rw [List.foldl_cons, foldl_mulZ ks, List.prod_cons]
    push_cast
    ring

theorem rowIdx_eq {ks k : List ℕ} {c : ℕ} (h : k.length = ks.length) : rowIdx ks c k = rowMajor (c :: ks) (c :: k) := by
  unfold rowIdx
  rw [foldl_mulZ, rowSum h]
  simp only [rowMajor]
  push_cast
  ring

theorem rowMajor_head {d e : ℕ} {ks k : List ℕ} : rowMajor (d :: ks) k = rowMajor (e :: ks) k := by
  cases k <;> rfl

/-! ### Values -/

theorem loadAt_nat {x : Tensor V} {i : List ℕ} (h : InBounds x.shape i) :
    loadAt x (i.map fun (j : ℕ) => (j : ℤ)) = some (x.get i) := by
  unfold loadAt
  rw [if_pos (inZ_cast.2 h), cast_toNat]

theorem inside_nat {ia : List IAxis} {xs : List ℕ} {p : List ℤ} (hx : xs = ia.map IAxis.inp) (h : inside ia p) :
    InBounds xs (p.map Int.toNat) ∧ (p.map Int.toNat).map (fun (j : ℕ) => (j : ℤ)) = p := by
  have : InZ xs p := by
    unfold inside at h
    rw [hx]
    unfold InZ
    rw [List.forall₂_map_right_iff]
    exact h
  exact inZ_toNat this

theorem inIdx_length : ∀ {ia : List IAxis} {o k : List ℕ}, o.length = ia.length → k.length = ia.length →
    (inIdx ia o k).length = ia.length
  | [], _, _, _, _ => by unfold inIdx; rfl
  | a :: ia, [], _, h, _ => by simp at h
  | a :: ia, o :: os, [], _, h => by simp at h
  | a :: ia, o :: os, k :: ks, h1, h2 => by
    unfold inIdx
    rw [List.length_cons, inIdx_length (by simpa using h1) (by simpa using h2), List.length_cons]

theorem simpleVal_eq {x : Tensor V} {ia : List IAxis} {ax : List WinAx} {n c N C : ℕ} {o k xs : List ℕ}
    (hr : List.Forall₂ IRel ia ax) (hx : x.shape = N :: C :: xs) (hxs : xs = ia.map IAxis.inp)
    (h0 : ∀ d ∈ xs, 0 < d) (ho : o.length = ax.length) (hk : k.length = ax.length) (hn : n < N) (hc : c < C) :
    simpleVal A x ia n c o k = some (under A ax x n c o k) := by
  unfold simpleVal under
  simp only
  rcases inIdx_winPos hr ho hk with ⟨h1, h2⟩ | ⟨h1, h2⟩
  · rw [h2]
    simp only [if_pos h1]
    obtain ⟨g1, g2⟩ := inside_nat hxs h1
    have e : ((n : ℤ) :: (c : ℤ) :: (inIdx ia o k).map fun i => i) =
        (n :: c :: (inIdx ia o k).map Int.toNat).map fun (j : ℕ) => (j : ℤ) := by
      rw [List.map_cons, List.map_cons, g2, List.map_id']
    rw [e, loadAt_nat (by rw [hx, inBounds_cons, inBounds_cons]; exact ⟨hn, hc, g1⟩)]
    rfl
  · rw [h2]
    simp only [if_neg h1]
    have hl := hr.length_eq
    have e : ((n : ℤ) :: (c : ℤ) :: (inIdx ia o k).map fun _ => (0 : ℤ)) =
        (n :: c :: List.replicate xs.length 0).map fun (j : ℕ) => (j : ℤ) := by
      rw [List.map_cons, List.map_cons, List.map_replicate, List.map_const']
      have : (inIdx ia o k).length = xs.length := by
        rw [inIdx_length (by omega) (by omega), hxs, List.length_map]
      rw [this]
      rfl
    rw [e, loadAt_nat]
    · rfl
    · rw [hx, inBounds_cons, inBounds_cons]
      refine ⟨hn, hc, ?_⟩
      clear e hx hxs
      induction xs with
      | nil => exact inBounds_nil
      | cons d xs ih =>
        rw [List.length_cons, List.replicate_succ, inBounds_cons]
        exact ⟨h0 d (by simp), ih fun e he => h0 e (by simp [he])⟩

end Verif.ConvMatMul
