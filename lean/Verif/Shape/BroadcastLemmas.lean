import Verif.Shape.BroadcastSpec
import Verif.Shape.BroadcastModel
import Verif.IndexExpr.Computes
import Mathlib.Tactic.Linarith

namespace Verif.Shape
open Verif.IndexExpr

variable {κ : Nat → Option Int} {ρ : Nat → Int}

theorem litOf_eval (hκ : ∀ x n, κ x = some n → ρ x = n) {e : Expr} {m : Int} (h : litOf κ e = some m) :
    e.eval ρ = some m := by
  cases e <;> simp [litOf] at h
  · subst h; rw [Expr.eval]
  · rw [Expr.eval, hκ _ _ h]

/-- Rows all of length `r`, dimension-wise induction over the operands. -/
theorem bcastDims_spec {uni : Bool} : ∀ (a b : List Expr), a.length = b.length →
    (∀ (j : Nat) (x y : Expr), a[j]? = some x → b[j]? = some y → ∃ z, bcastDim κ uni x y = some z) →
    ∃ c, bcastDims κ uni a b = some c ∧ c.length = a.length ∧
      ∀ (j : Nat) (x y : Expr), a[j]? = some x → b[j]? = some y →
        ∃ z, c[j]? = some z ∧ bcastDim κ uni x y = some z
  | [], [], _, _ => ⟨[], rfl, rfl, by simp⟩
  | [], _ :: _, h, _ => by simp at h
  | _ :: _, [], h, _ => by simp at h
  | a :: as, b :: bs, h, hz => by
    obtain ⟨c, hc, hl, hi⟩ := bcastDims_spec as bs (by simpa using h)
      (fun j x y hx hy => hz (j + 1) x y (by simpa using hx) (by simpa using hy))
    obtain ⟨z, hzz⟩ := hz 0 a b (by simp) (by simp)
    refine ⟨z :: c, by simp [bcastDims, hzz, hc], by simp [hl], ?_⟩
    intro j x y hx hy
    cases j with
    | zero =>
      simp at hx hy
      subst hx hy
      exact ⟨z, by simp, hzz⟩
    | succ j => simpa using hi j x y (by simpa using hx) (by simpa using hy)

theorem bcastOps_ind {uni : Bool} {r : Nat} {I : Nat → List (List Expr) → Expr → Prop}
    {S : List (List Expr)}
    (hstep : ∀ (j : Nat) (P : List (List Expr)) (c : Expr) (row : List Expr) (e : Expr), j < r → row ∈ S →
      row[j]? = some e → I j P c → ∃ c', bcastDim κ uni c e = some c' ∧ I j (row :: P) c') :
    ∀ (ds : List (List Expr)) (P : List (List Expr)) (cur : List Expr), (∀ d ∈ ds, d ∈ S ∧ d.length = r) →
      cur.length = r → (∀ (j : Nat) (c : Expr), cur[j]? = some c → I j P c) →
      ∃ res, bcastOps κ uni cur ds = some res ∧ res.length = r ∧
        ∀ (j : Nat) (c : Expr), res[j]? = some c → I j (ds.reverse ++ P) c
  | [], P, cur, _, hcl, hI => ⟨cur, rfl, hcl, by simpa using hI⟩
  | d :: ds, P, cur, hd, hcl, hI => by
    have hdd := hd d (by simp)
    obtain ⟨c, hc, hl, hj⟩ := bcastDims_spec (κ := κ) (uni := uni) cur d (by omega) (by
      intro j x y hx hy
      obtain ⟨c', h1, -⟩ := hstep j P x d y
        (by have := (List.getElem?_eq_some_iff.1 hx).1; omega) hdd.1 hy (hI j x hx)
      exact ⟨c', h1⟩)
    obtain ⟨res, h1, h2, h3⟩ := bcastOps_ind hstep ds (d :: P) c
      (fun e he => hd e (by simp [he])) (by omega) (by
        intro j z hz
        have hjr : j < r := by have := (List.getElem?_eq_some_iff.1 hz).1; omega
        have hx : cur[j]? = some cur[j] := List.getElem?_eq_getElem (by omega)
        have hy : d[j]? = some d[j] := List.getElem?_eq_getElem (by omega)
        obtain ⟨z', hz', hb⟩ := hj j _ _ hx hy
        rw [hz] at hz'
        simp only [Option.some.injEq] at hz'
        subst hz'
        obtain ⟨c', h1, h2⟩ := hstep j P _ d _ hjr hdd.1 hy (hI j _ hx)
        rw [hb] at h1
        simp only [Option.some.injEq] at h1
        subst h1
        exact h2)
    refine ⟨res, by simp [bcastOps, hc, h1], h2, ?_⟩
    intro j c hc
    simpa using h3 j c hc

/-- What is known about the current extent after the extents `L`, if the output extent is `d`. -/
structure ColInv (κ : Nat → Option Int) (ρ : Nat → Int) (d : Int) (L : List Expr) (c : Expr) (v : Int) : Prop where
  ok : c.Ok ρ
  val : c.eval ρ = some v
  known : ∀ m, litOf κ c = some m →
    (m = 1 ∧ ∀ e ∈ L, litOf κ e = some 1) ∨ (m ≠ 1 ∧ m = d ∧ ∃ e ∈ L, litOf κ e = some m)
  unknown : litOf κ c = none → (∀ e ∈ L, ∀ m, litOf κ e = some m → m = 1) ∧
    (∃ e ∈ L, litOf κ e = none ∧ e.eval ρ = some v) ∧
    ∀ e ∈ L, litOf κ e = none → ∀ w, e.eval ρ = some w → w ≤ v

theorem colInv_single {d : Int} {e : Expr} {v : Int} (hκ : ∀ x n, κ x = some n → ρ x = n)
    (hok : e.Ok ρ) (hv : e.eval ρ = some v) (hd : v = 1 ∨ v = d) : ColInv κ ρ d [e] e v := by
  refine ⟨hok, hv, ?_, ?_⟩
  · intro m hm
    have := litOf_eval hκ hm
    rw [hv] at this
    simp only [Option.some.injEq] at this
    subst this
    by_cases h1 : v = 1
    · left; exact ⟨h1, by simp [hm, h1]⟩
    · right; exact ⟨h1, hd.resolve_left h1, e, by simp, hm⟩
  · intro hn
    refine ⟨by simp [hn], ⟨e, by simp, hn, hv⟩, ?_⟩
    intro e' he' _ w hw
    simp at he'
    subst he'
    rw [hv] at hw
    simp only [Option.some.injEq] at hw
    omega

theorem colInv_step {d : Int} {L : List Expr} {c e : Expr} {v w : Int} (hκ : ∀ x n, κ x = some n → ρ x = n)
    (h : ColInv κ ρ d L c v) (hok : e.Ok ρ) (hw : e.eval ρ = some w) (hd : w = 1 ∨ w = d) :
    ∃ c', bcastDim κ false c e = some c' ∧ ∃ v', ColInv κ ρ d (e :: L) c' v' := by
  have hlit : ∀ m, litOf κ e = some m → m = w := fun m hm => by
    have := litOf_eval hκ hm
    rw [hw] at this
    simpa using this.symm
  unfold bcastDim
  by_cases h1 : litOf κ c = some 1
  · rw [if_pos h1]
    obtain ⟨-, hL⟩ | ⟨h2, -⟩ := h.known 1 h1
    swap
    · exact absurd rfl h2
    refine ⟨e, by simp, w, hok, hw, ?_, ?_⟩
    · intro m hm
      have := hlit m hm
      subst this
      by_cases h3 : m = 1
      · left
        refine ⟨h3, ?_⟩
        intro e' he'
        rcases List.mem_cons.1 he' with rfl | he'
        · rw [hm, h3]
        · exact hL e' he'
      · right; exact ⟨h3, hd.resolve_left h3, e, by simp, hm⟩
    · intro hn
      refine ⟨?_, ⟨e, by simp, hn, hw⟩, ?_⟩
      · intro e' he' m hm
        rcases List.mem_cons.1 he' with rfl | he'
        · rw [hn] at hm; simp at hm
        · rw [hL e' he'] at hm; simpa using hm.symm
      · intro e' he' hn' w' hw'
        rcases List.mem_cons.1 he' with rfl | he'
        · rw [hw] at hw'; simp at hw'; omega
        · rw [hL e' he'] at hn'; simp at hn'
  · rw [if_neg h1]
    cases hc : litOf κ c with
    | some m =>
      obtain ⟨rfl, -⟩ | ⟨hm1, hmd, e0, he0, hl0⟩ := h.known m hc
      · exact absurd hc h1
      have keep : ColInv κ ρ d (e :: L) c v := by
        refine ⟨h.ok, h.val, ?_, fun hn => by rw [hn] at hc; simp at hc⟩
        intro m' hm'
        rw [hc] at hm'
        simp only [Option.some.injEq] at hm'
        subst hm'
        exact .inr ⟨hm1, hmd, e0, by simp [he0], hl0⟩
      cases he : litOf κ e with
      | none => exact ⟨c, rfl, v, keep⟩
      | some n =>
        have hn := hlit n he
        simp only
        rw [if_neg (by
          rintro ⟨h3, h4⟩
          rcases hd with hd | hd
          · omega
          · omega)]
        exact ⟨c, rfl, v, keep⟩
    | none =>
      obtain ⟨hu1, ⟨e0, he0, hl0, hv0⟩, hu3⟩ := h.unknown hc
      simp only
      by_cases h2 : litOf κ e = some 1
      · rw [if_pos h2]
        refine ⟨c, rfl, v, h.ok, h.val, fun m hm => by rw [hc] at hm; simp at hm, fun _ => ⟨?_, ⟨e0, by simp [he0], hl0, hv0⟩, ?_⟩⟩
        · intro e' he' m hm
          rcases List.mem_cons.1 he' with rfl | he'
          · rw [h2] at hm; simpa using hm.symm
          · exact hu1 e' he' m hm
        · intro e' he' hn' w' hw'
          rcases List.mem_cons.1 he' with rfl | he'
          · rw [h2] at hn'; simp at hn'
          · exact hu3 e' he' hn' w' hw'
      · rw [if_neg h2]
        cases he : litOf κ e with
        | some n =>
          have hn := hlit n he
          subst hn
          have hn1 : n ≠ 1 := fun h => h2 (by rw [he, h])
          refine ⟨e, by simp, n, hok, hw, ?_, fun hn => by rw [he] at hn; simp at hn⟩
          intro m hm
          rw [he] at hm
          simp only [Option.some.injEq] at hm
          subst hm
          exact .inr ⟨hn1, hd.resolve_left hn1, e, by simp, he⟩
        | none =>
          refine ⟨_, by simp; rfl, max v w, ?_, ?_, ?_, ?_⟩
          · exact ⟨h.ok, hok, trivial⟩
          · simp [Expr.eval, h.val, hw, evalList, greatest]
          · intro m hm; simp [litOf] at hm
          · intro _
            refine ⟨?_, ?_, ?_⟩
            · intro e' he' m hm
              rcases List.mem_cons.1 he' with rfl | he'
              · rw [he] at hm; simp at hm
              · exact hu1 e' he' m hm
            · rcases le_total v w with hvw | hvw
              · exact ⟨e, by simp, he, by rw [max_eq_right hvw, hw]⟩
              · exact ⟨e0, by simp [he0], hl0, by rw [max_eq_left hvw, hv0]⟩
            · intro e' he' hn' w' hw'
              rcases List.mem_cons.1 he' with rfl | he'
              · rw [hw] at hw'; simp at hw'; subst hw'; exact le_max_right _ _
              · exact le_trans (hu3 e' he' hn' w' hw') (le_max_left _ _)

/-- At the end the value is `d`, unless an unknown extent 1 meets an unknown extent 0. -/
theorem colInv_final {d : Int} {L : List Expr} {c : Expr} {v : Int} (hκ : ∀ x n, κ x = some n → ρ x = n)
    (h : ColInv κ ρ d L c v) (hd0 : 0 ≤ d)
    (hall : ∀ e ∈ L, ∃ w, e.eval ρ = some w ∧ (w = 1 ∨ w = d))
    (hex : ∃ e ∈ L, e.eval ρ = some d)
    (hz : d = 0 → (∃ e ∈ L, litOf κ e = some 0) ∨ ∀ e ∈ L, litOf κ e = none → e.eval ρ = some 0) :
    v = d := by
  cases hc : litOf κ c with
  | some m =>
    have hv := litOf_eval hκ hc
    rw [h.val] at hv
    simp only [Option.some.injEq] at hv
    obtain ⟨h1, hL⟩ | ⟨-, h2, -⟩ := h.known m hc
    · obtain ⟨e, he, hde⟩ := hex
      rw [litOf_eval hκ (hL e he)] at hde
      simp at hde
      omega
    · omega
  | none =>
    obtain ⟨hu1, ⟨e0, he0, hl0, hv0⟩, hu3⟩ := h.unknown hc
    obtain ⟨w, hw, hw1⟩ := hall e0 he0
    rw [hv0] at hw
    simp only [Option.some.injEq] at hw
    subst hw
    rcases hw1 with hv1 | hv1
    swap
    · exact hv1
    obtain ⟨e, he, hde⟩ := hex
    cases hle : litOf κ e with
    | some m =>
      have h1 := hu1 e he m hle
      rw [litOf_eval hκ hle] at hde
      simp at hde
      omega
    | none =>
      have := hu3 e he hle d hde
      by_cases hd : d = 0
      · rcases hz hd with ⟨e1, he1, hl1⟩ | hz
        · have := hu1 e1 he1 0 hl1; omega
        · have := hz e0 he0 hl0
          rw [hv0] at this
          simp at this
          omega
      · omega

/-- Operand dimensions, as the model gets them. -/
def symDims (s : List Nat) : List Expr := s.map .sym

/-- The expression `k` positions before the last dimension. -/
def dimE (s : List Nat) (k : Nat) : Expr := (symDims s).reverse.getD k (.lit 1)

theorem dimE_eval (s : List Nat) (k : Nat) : (dimE s k).eval ρ = some (extent (s.map ρ) k) := by
  unfold dimE symDims extent
  rw [← List.map_reverse, ← List.map_reverse, List.getD_eq_getElem?_getD, List.getD_eq_getElem?_getD,
    List.getElem?_map, List.getElem?_map]
  cases s.reverse[k]? <;> simp [Expr.eval]

theorem dimE_ok (s : List Nat) (k : Nat) : (dimE s k).Ok ρ := by
  unfold dimE symDims
  rw [← List.map_reverse, List.getD_eq_getElem?_getD, List.getElem?_map]
  cases s.reverse[k]? <;> simp [Expr.Ok]

theorem dimE_lit (s : List Nat) (k : Nat) (m : Int) :
    litOf κ (dimE s k) = some m ↔ (∃ x, s.reverse[k]? = some x ∧ κ x = some m) ∨ (s.reverse[k]? = none ∧ m = 1) := by
  unfold dimE symDims
  rw [← List.map_reverse, List.getD_eq_getElem?_getD, List.getElem?_map]
  cases s.reverse[k]? <;> simp [litOf, eq_comm]

theorem dimE_lit_none (s : List Nat) (k : Nat) :
    litOf κ (dimE s k) = none ↔ ∃ x, s.reverse[k]? = some x ∧ κ x = none := by
  unfold dimE symDims
  rw [← List.map_reverse, List.getD_eq_getElem?_getD, List.getElem?_map]
  cases s.reverse[k]? <;> simp [litOf]

theorem padTo_length {r : Nat} {s : List Expr} (h : s.length ≤ r) : (padTo r s).length = r := by
  simp [padTo]; omega

theorem padTo_get {r : Nat} {s : List Nat} (h : s.length ≤ r) {j : Nat} (hj : j < r) :
    (padTo r (symDims s))[j]? = some (dimE s (r - 1 - j)) := by
  unfold padTo dimE symDims
  rw [List.getElem?_append]
  simp only [List.length_replicate, List.length_map]
  split
  · rename_i h1
    rw [List.getElem?_replicate, if_pos h1, List.getD_eq_getElem?_getD, List.getElem?_eq_none_iff.2 (by simp; omega)]
    rfl
  · rename_i h1
    rw [List.getD_eq_getElem?_getD, List.getElem?_reverse (by simp; omega)]
    simp only [List.length_map]
    rw [show s.length - 1 - (r - 1 - j) = j - (r - s.length) by omega,
      List.getElem?_eq_getElem (by simp; omega)]
    rfl

theorem foldl_max_ge : ∀ (l : List Nat) (a : Nat), a ≤ l.foldl max a ∧ ∀ x ∈ l, x ≤ l.foldl max a
  | [], a => by simp
  | b :: l, a => by
    obtain ⟨h1, h2⟩ := foldl_max_ge l (max a b)
    simp only [List.foldl_cons]
    refine ⟨le_trans (le_max_left _ _) h1, ?_⟩
    intro x hx
    rcases List.mem_cons.1 hx with rfl | hx
    · exact le_trans (le_max_right _ _) h1
    · exact h2 x hx

theorem foldl_max_mem : ∀ (l : List Nat) (a : Nat), l.foldl max a = a ∨ l.foldl max a ∈ l
  | [], a => by simp
  | b :: l, a => by
    simp only [List.foldl_cons]
    rcases foldl_max_mem l (max a b) with h | h
    · rw [h]
      rcases le_total a b with hab | hab
      · right; simp [max_eq_right hab]
      · left; exact max_eq_left hab
    · right; simp [h]

theorem outRank_eq {ops : List (List Nat)} {n : Nat} (h1 : ∀ s ∈ ops, s.length ≤ n)
    (h2 : ∃ s ∈ ops, s.length = n) : outRank (ops.map symDims) = n := by
  unfold outRank
  have hm : (ops.map symDims).map List.length = ops.map List.length := by
    simp [symDims]
  rw [hm]
  obtain ⟨s, hs, hn⟩ := h2
  have hge := (foldl_max_ge (ops.map List.length) 0).2 n (List.mem_map.2 ⟨s, hs, hn⟩)
  rcases foldl_max_mem (ops.map List.length) 0 with h | h
  · omega
  · obtain ⟨t, ht, hl⟩ := List.mem_map.1 h
    have := h1 t ht
    omega

theorem inputsDims_eq {ops : List (List Nat)} {n : Nat} (h1 : ∀ s ∈ ops, s.length ≤ n)
    (h2 : ∃ s ∈ ops, s.length = n) : inputsDims (ops.map symDims) = ops.map fun s => padTo n (symDims s) := by
  unfold inputsDims
  rw [outRank_eq h1 h2, List.map_map]
  rfl

/-- The broadcast shape, dimension `k` counted from the last. -/
theorem bcastShape_spec {ops : List (List Nat)} {out : List Int} (hκ : ∀ x n, κ x = some n → ρ x = n)
    (hb : BroadcastTo (ops.map (·.map ρ)) out) (hpos : ∀ d ∈ out, 0 ≤ d)
    (hz : ∀ k < out.length, extent out k = 0 →
      (∃ s ∈ ops, litOf κ (dimE s k) = some 0) ∨ ∀ s ∈ ops, litOf κ (dimE s k) = none → (dimE s k).eval ρ = some 0) :
    ∃ res, bcastShape κ false (ops.map symDims) = some res ∧ res.length = out.length ∧
      ∀ k < out.length, ∃ e, res.reverse[k]? = some e ∧ e.Ok ρ ∧ e.eval ρ = some (extent out k) := by
  set r := out.length with hr
  have h1 : ∀ s ∈ ops, s.length ≤ r := fun s hs => by
    have := hb.fits (s.map ρ) (List.mem_map.2 ⟨s, hs, rfl⟩); simpa using this
  have h2 : ∃ s ∈ ops, s.length = r := by
    obtain ⟨t, ht, hl⟩ := hb.rank
    obtain ⟨s, hs, rfl⟩ := List.mem_map.1 ht
    exact ⟨s, hs, by simpa using hl⟩
  unfold bcastShape
  rw [inputsDims_eq h1 h2]
  cases ops with
  | nil => obtain ⟨s, hs, -⟩ := h2; simp at hs
  | cons s0 ss =>
    simp only [List.map_cons]
    have heach : ∀ s ∈ s0 :: ss, ∀ k < r, extent (s.map ρ) k = 1 ∨ extent (s.map ρ) k = extent out k :=
      fun s hs k hk => hb.each k hk (s.map ρ) (List.mem_map.2 ⟨s, hs, rfl⟩)
    obtain ⟨res, hres, hlen, hI⟩ := bcastOps_ind (κ := κ) (uni := false) (r := r)
      (S := (s0 :: ss).map fun s => padTo r (symDims s))
      (I := fun j P c => ∃ v, ColInv κ ρ (extent out (r - 1 - j)) (P.filterMap (fun (row : List Expr) => row[j]?)) c v)
      (by
        intro j P c row e hj hrow he ⟨v, hv⟩
        obtain ⟨s, hs, rfl⟩ := List.mem_map.1 hrow
        rw [padTo_get (h1 s hs) hj] at he
        simp only [Option.some.injEq] at he
        subst he
        obtain ⟨c', hc', v', hv'⟩ := colInv_step hκ hv (dimE_ok s _) (dimE_eval s _) (heach s hs _ (by omega))
        refine ⟨c', hc', v', ?_⟩
        rw [List.filterMap_cons, padTo_get (h1 s hs) hj]
        exact hv')
      (ss.map fun s => padTo r (symDims s)) [padTo r (symDims s0)] (padTo r (symDims s0))
      (by
        intro d hd
        obtain ⟨s, hs, rfl⟩ := List.mem_map.1 hd
        exact ⟨List.mem_map.2 ⟨s, by simp [hs], rfl⟩, padTo_length (by simpa [symDims] using h1 s (by simp [hs]))⟩)
      (padTo_length (by simpa [symDims] using h1 s0 (by simp)))
      (by
        intro j c hc
        have hj : j < r := by
          have := (List.getElem?_eq_some_iff.1 hc).1
          rwa [padTo_length (by simpa [symDims] using h1 s0 (by simp))] at this
        have hc' := hc
        rw [padTo_get (h1 s0 (by simp)) hj] at hc'
        simp only [Option.some.injEq] at hc'
        refine ⟨extent (s0.map ρ) (r - 1 - j), ?_⟩
        rw [List.filterMap_cons, hc]
        subst hc'
        exact colInv_single hκ (dimE_ok s0 _) (dimE_eval s0 _) (heach s0 (by simp) _ (by omega)))
    refine ⟨res, hres, hlen, ?_⟩
    intro k hk
    have hj : r - 1 - k < res.length := by omega
    refine ⟨res[r - 1 - k], ?_, ?_⟩
    · rw [List.getElem?_reverse (by omega), hlen, List.getElem?_eq_getElem hj]
    · obtain ⟨v, hv⟩ := hI (r - 1 - k) _ (List.getElem?_eq_getElem hj)
      rw [show r - 1 - (r - 1 - k) = k by omega] at hv
      have hL : ∀ e, e ∈ List.filterMap (fun (row : List Expr) => row[r - 1 - k]?)
          ((ss.map fun s => padTo r (symDims s)).reverse ++ [padTo r (symDims s0)]) ↔
          ∃ s ∈ s0 :: ss, e = dimE s k := by
        intro e
        rw [List.mem_filterMap]
        constructor
        · rintro ⟨row, hrow, he⟩
          have : ∃ s ∈ s0 :: ss, row = padTo r (symDims s) := by
            simp only [List.mem_append, List.mem_reverse, List.mem_map, List.mem_singleton] at hrow
            rcases hrow with ⟨s, hs, rfl⟩ | rfl
            · exact ⟨s, by simp [hs], rfl⟩
            · exact ⟨s0, by simp, rfl⟩
          obtain ⟨s, hs, rfl⟩ := this
          rw [padTo_get (h1 s hs) (by omega), show r - 1 - (r - 1 - k) = k by omega] at he
          exact ⟨s, hs, by simpa using he.symm⟩
        · rintro ⟨s, hs, rfl⟩
          refine ⟨padTo r (symDims s), ?_, ?_⟩
          · simp only [List.mem_append, List.mem_reverse, List.mem_map, List.mem_singleton]
            rcases List.mem_cons.1 hs with rfl | hs
            · exact .inr rfl
            · exact .inl ⟨s, hs, rfl⟩
          · rw [padTo_get (h1 s hs) (by omega), show r - 1 - (r - 1 - k) = k by omega]
      have hd : v = extent out k := by
        refine colInv_final hκ hv ?_ ?_ ?_ ?_
        · unfold extent
          rw [List.getD_eq_getElem?_getD, List.getElem?_eq_getElem (by simp; omega)]
          exact hpos _ (by
            have := List.getElem_mem (l := out.reverse) (n := k) (by simp; omega)
            simpa using this)
        · intro e he
          obtain ⟨s, hs, rfl⟩ := (hL e).1 he
          exact ⟨_, dimE_eval s k, heach s hs k hk⟩
        · obtain ⟨t, ht, hte⟩ := hb.some k hk
          obtain ⟨s, hs, rfl⟩ := List.mem_map.1 ht
          exact ⟨dimE s k, (hL _).2 ⟨s, hs, rfl⟩, by rw [dimE_eval, hte]⟩
        · intro h0
          rcases hz k hk h0 with ⟨s, hs, h⟩ | h
          · exact .inl ⟨_, (hL _).2 ⟨s, hs, rfl⟩, h⟩
          · right
            intro e he hn
            obtain ⟨s, hs, rfl⟩ := (hL e).1 he
            exact h s hs hn
      exact ⟨hv.ok, by rw [← hd]; exact hv.val⟩

end Verif.Shape
