import Verif.Lower.NmsModel
import Verif.Props.Sort
import Verif.Lower.ConvLemmas

/-!
C75: NonMaxSuppression.
-/

namespace Verif.Props

open Verif.Lower

variable {R : Type} [Field R] [LinearOrder R] [IsStrictOrderedRing R]

/-! ### Specification -/

/-- Greedy selection of at most `n` boxes: take the first candidate, drop those that
overlap it too much, go on. -/
def greedy (over : ℕ → ℕ → Prop) [DecidableRel over] : ℕ → List ℕ → List ℕ
  | 0, _ => []
  | _, [] => []
  | n + 1, s :: rest => s :: greedy over n (rest.filter fun o => ¬ over s o)

/-- An axis-parallel rectangle, with its sides in order. -/
structure Rect (R : Type) where
  xmin : R
  xmax : R
  ymin : R
  ymax : R

/-- The rectangle of a box: any two opposite corners, or centre, width and height. -/
def rectOf (center : Bool) (b : Box R) : Rect R :=
  if center then ⟨b.v0 - b.v2 / 2, b.v0 + b.v2 / 2, b.v1 - b.v3 / 2, b.v1 + b.v3 / 2⟩
  else ⟨min b.v1 b.v3, max b.v1 b.v3, min b.v0 b.v2, max b.v0 b.v2⟩

def area (r : Rect R) : R := (r.xmax - r.xmin) * (r.ymax - r.ymin)

/-- Length of the intersection of two intervals. -/
def overlap (a b c d : R) : R := max (min b d - max a c) 0

def interArea (p q : Rect R) : R := overlap p.xmin p.xmax q.xmin q.xmax * overlap p.ymin p.ymax q.ymin q.ymax

/-- Intersection over union. -/
def iou (p q : Rect R) : R := interArea p q / (area p + area q - interArea p q)

/-- What ONNX asks for: batches and classes in order; in each the greedy selection among the
boxes with a score above the threshold, best score first. -/
def onnxNms (center : Bool) (th iouTh : R) (maxOut : ℕ) (bs cs : ℕ) (boxes : ℕ → ℕ → Box R) (scores : ℕ → ℕ → ℕ → R)
    (order : ℕ → ℕ → List ℕ) : List (ℕ × ℕ × ℕ) :=
  (List.range bs).flatMap fun b => (List.range cs).flatMap fun c =>
    (greedy (fun s o => iouTh < iou (rectOf center (boxes b s)) (rectOf center (boxes b o))) maxOut
      ((order b c).filter fun s => th < scores b c s)).map fun s => (b, c, s)

/-! ### Lemmas -/

theorem emitIOU_eq (center : Bool) (eps : R) (p q : Box R) :
    emitIOU center eps (nmsBox center p) (nmsBox center q) =
      interArea (rectOf center p) (rectOf center q) /
        (area (rectOf center p) + area (rectOf center q) - interArea (rectOf center p) (rectOf center q) + eps) := by
  have mn : ∀ a b : R, (if a > b then b else a) = min a b := by
    intro a b
    rcases lt_or_ge b a with h | h
    · rw [if_pos h, min_eq_right h.le]
    · rw [if_neg (not_lt.2 h), min_eq_left h]
  have mx : ∀ a b : R, (if a > b then a else b) = max a b := by
    intro a b
    rcases lt_or_ge b a with h | h
    · rw [if_pos h, max_eq_left h.le]
    · rw [if_neg (not_lt.2 h), max_eq_right h]
  cases center with
  | false =>
    simp only [emitIOU, nmsBox, unflip, rectOf, interArea, overlap, area, Bool.false_eq_true, if_false, mn, mx]
    congr 1
    ring
  | true =>
    simp only [emitIOU, nmsBox, rectOf, interArea, overlap, area, if_true]
    congr 1
    ring

theorem markRemoved_spec (over : ℕ → Bool) (ss : ℕ) (removed : ℕ → Bool) (k : ℕ) :
    markRemoved over ss removed k = (removed k || (decide (k < ss) && over k)) := by
  unfold markRemoved
  induction ss with
  | zero => simp
  | succ n ih =>
    rw [List.range_succ, List.foldl_append, List.foldl_cons, List.foldl_nil]
    generalize hr : (List.range n).foldl (fun r o => if !r o && over o then fun k => if k = o then true else r k else r) removed = r at *
    have hn : ∀ j, (if (!r n && over n) = true then fun k => if k = n then true else r k else r) j =
        if j = n then (r n || over n) else r j := by
      intro j
      by_cases hj : j = n
      · subst hj
        cases h1 : r j <;> cases h2 : over j <;> simp [h1]
      · cases h1 : r n <;> cases h2 : over n <;> simp [hj]
    rw [hn k]
    by_cases hk : k = n
    · subst hk
      rw [if_pos rfl, ih]
      simp
    · rw [if_neg hk, ih]
      have : decide (k < n + 1) = decide (k < n) := by
        rw [decide_eq_decide]; omega
      rw [this]

theorem greedy_congr {over over' : ℕ → ℕ → Prop} [DecidableRel over] [DecidableRel over'] {n : ℕ} {L : List ℕ}
    (h : L.Pairwise fun s o => (over s o ↔ over' s o)) : greedy over n L = greedy over' n L := by
  induction n generalizing L with
  | zero => rfl
  | succ n ih =>
    cases L with
    | nil => rfl
    | cons s rest =>
      rw [List.pairwise_cons] at h
      rw [greedy, greedy]
      have : rest.filter (fun o => ¬ over s o) = rest.filter (fun o => ¬ over' s o) := by
        refine List.filter_congr fun o ho => ?_
        rw [decide_eq_decide, h.1 o ho]
      rw [this]
      congr 1
      exact ih (h.2.sublist List.filter_sublist)

/-- A limit above the number of candidates is no limit. -/
theorem greedy_limit (over : ℕ → ℕ → Prop) [DecidableRel over] {n m : ℕ} {L : List ℕ} (hn : L.length ≤ n) (hm : L.length ≤ m) :
    greedy over n L = greedy over m L := by
  induction n generalizing m L with
  | zero =>
    have : L = [] := List.length_eq_zero_iff.1 (by omega)
    subst this
    cases m <;> rfl
  | succ n ih =>
    cases L with
    | nil => cases m <;> rfl
    | cons s rest =>
      obtain ⟨m, rfl⟩ : ∃ k, m = k + 1 := ⟨m - 1, by simp at hm; omega⟩
      rw [greedy, greedy]
      congr 1
      have := List.length_filter_le (fun o => decide (¬ over s o)) rest
      simp only [List.length_cons] at hn hm
      exact ih (by omega) (by omega)

theorem greedy_length (over : ℕ → ℕ → Prop) [DecidableRel over] (n : ℕ) (L : List ℕ) : (greedy over n L).length ≤ n := by
  induction n generalizing L with
  | zero => simp [greedy]
  | succ n ih =>
    cases L with
    | nil => simp [greedy]
    | cons s rest => rw [greedy]; simpa using ih _

/-- The loop over the boxes of a class is the greedy selection. -/
theorem nmsClass_from {th : R} {score : ℕ → R} {over : ℕ → ℕ → Bool} {ss : ℕ} {mopc cap : ℤ} {b c : ℕ} (L : List ℕ) (s : NmsState)
    (hL : ∀ o ∈ L, o < ss) (hnd : L.Nodup) (hcap : (s.out.length : ℤ) + (mopc - s.cnt) ≤ cap) (hcnt : s.cnt ≤ mopc) :
    (L.foldlM (fun s bi => nmsStep th score over ss mopc cap b c bi s) s).map NmsState.out =
      some (s.out ++ (greedy (fun s o => over s o = true) (mopc - s.cnt).toNat
        (L.filter fun o => decide (th < score o) && !s.removed o)).map fun o => (b, c, o)) := by
  induction L generalizing s with
  | nil =>
    cases h : (mopc - s.cnt).toNat <;> simp [greedy]
  | cons o L ih =>
    rw [List.nodup_cons] at hnd
    rw [List.foldlM_cons]
    unfold nmsStep
    rw [if_pos (hL o (by simp))]
    by_cases hc : (score o > th && decide (s.cnt < mopc) && !s.removed o) = true
    · rw [if_pos hc]
      simp only [Bool.and_eq_true, decide_eq_true_eq, gt_iff_lt] at hc
      obtain ⟨⟨h1, h2⟩, h3⟩ := hc
      rw [if_pos (by omega)]
      refine (ih ⟨s.cnt + 1, markRemoved (over o) ss s.removed, s.out ++ [(b, c, o)]⟩ (fun o ho => hL o (by simp [ho])) hnd.2
        (by simp only [List.length_append, List.length_singleton]; push_cast; omega)
        (by show s.cnt + 1 ≤ mopc; omega)).trans ?_
      rw [List.filter_cons, if_pos (by simp [h1, h3])]
      have : (mopc - s.cnt).toNat = (mopc - (s.cnt + 1)).toNat + 1 := by omega
      rw [this, greedy, List.filter_filter, List.map_cons, List.append_assoc, List.singleton_append]
      congr 5
      refine List.filter_congr fun k hk => ?_
      have hks : k < ss := hL k (by simp [hk])
      simp only [markRemoved_spec]
      cases over o k <;> cases s.removed k <;> simp [hks]
    · rw [if_neg hc]
      refine (ih s (fun o ho => hL o (by simp [ho])) hnd.2 hcap hcnt).trans ?_
      by_cases hfull : s.cnt < mopc
      · rw [List.filter_cons, if_neg]
        simp only [Bool.and_eq_true, decide_eq_true_eq, gt_iff_lt, hfull, and_true] at hc ⊢
        exact hc
      · have : (mopc - s.cnt).toNat = 0 := by omega
        rw [this]
        rfl

theorem countAbove_eq (th : R) (score : ℕ → R) (ss : ℕ) :
    countAbove th score ss = (((List.range ss).filter fun s => th < score s).length : ℤ) := by
  unfold countAbove
  have : ∀ (L : List ℕ) (n : ℤ), L.foldl (fun n s => if score s > th then n + 1 else n) n =
      n + ((L.filter fun s => th < score s).length : ℤ) := by
    intro L
    induction L with
    | nil => intro n; simp
    | cons a L ih =>
      intro n
      rw [List.foldl_cons, ih, List.filter_cons]
      by_cases h : th < score a
      · rw [if_pos h, if_pos (by simpa using h), List.length_cons]; push_cast; ring
      · rw [if_neg h, if_neg (by simpa using h)]
  rw [this, zero_add]

theorem effectiveMax_spec (th : R) (scores : ℕ → ℕ → ℕ → R) (bs cs ss : ℕ) :
    0 ≤ effectiveMax th scores bs cs ss ∧
    ∀ b < bs, ∀ c < cs, countAbove th (scores b c) ss ≤ effectiveMax th scores bs cs ss := by
  have inner : ∀ (b : ℕ) (L : List ℕ) (m : ℤ),
      m ≤ L.foldl (fun m c => max (countAbove th (scores b c) ss) m) m ∧
      ∀ c ∈ L, countAbove th (scores b c) ss ≤ L.foldl (fun m c => max (countAbove th (scores b c) ss) m) m := by
    intro b L
    induction L with
    | nil => intro m; exact ⟨le_rfl, by simp⟩
    | cons a L ih =>
      intro m
      rw [List.foldl_cons]
      obtain ⟨h1, h2⟩ := ih (max (countAbove th (scores b a) ss) m)
      refine ⟨le_trans (le_max_right _ _) h1, fun c hc => ?_⟩
      rcases List.mem_cons.1 hc with rfl | hc
      · exact le_trans (le_max_left _ _) h1
      · exact h2 c hc
  have outer : ∀ (L : List ℕ) (m : ℤ),
      m ≤ L.foldl (fun m b => (List.range cs).foldl (fun m c => max (countAbove th (scores b c) ss) m) m) m ∧
      ∀ b ∈ L, ∀ c < cs, countAbove th (scores b c) ss ≤
        L.foldl (fun m b => (List.range cs).foldl (fun m c => max (countAbove th (scores b c) ss) m) m) m := by
    intro L
    induction L with
    | nil => intro m; exact ⟨le_rfl, by simp⟩
    | cons a L ih =>
      intro m
      rw [List.foldl_cons]
      obtain ⟨h1, h2⟩ := ih ((List.range cs).foldl (fun m c => max (countAbove th (scores a c) ss) m) m)
      obtain ⟨g1, g2⟩ := inner a (List.range cs) m
      refine ⟨g1.trans h1, fun b hb c hc => ?_⟩
      rcases List.mem_cons.1 hb with rfl | hb
      · exact (g2 c (List.mem_range.2 hc)).trans h1
      · exact h2 b hb c hc
  obtain ⟨h1, h2⟩ := outer (List.range bs) 0
  exact ⟨h1, fun b hb c hc => h2 b (List.mem_range.2 hb) c hc⟩

theorem foldlM_append_some {α β : Type} (f : List β → α → Option (List β)) (g : α → List β) (L : List α) (bound : ℕ) (base : List β)
    (hg : ∀ a ∈ L, (g a).length ≤ bound)
    (h : ∀ a ∈ L, ∀ out : List β, out.length + bound ≤ base.length + L.length * bound → f out a = some (out ++ g a)) :
    L.foldlM f base = some (base ++ L.flatMap g) := by
  induction L generalizing base with
  | nil => simp
  | cons a L ih =>
    rw [List.foldlM_cons, h a (by simp) base (by rw [List.length_cons, Nat.succ_mul]; omega)]
    show L.foldlM f (base ++ g a) = _
    rw [ih (base ++ g a) (fun b hb => hg b (by simp [hb])) (fun b hb out hout => h b (by simp [hb]) out ?_)]
    · simp
    · have := hg a (by simp)
      rw [List.length_append] at hout
      rw [List.length_cons, Nat.succ_mul]
      omega

/-! ### C75 -/

/-- The overlap test: for a positive threshold the test made and the test of ONNX agree unless the
threshold is strictly between the two quotients, which differ by the constant added to the divisor. -/
theorem C75_overlap_test (center : Bool) {eps iouTh : R} (he : 0 < eps) (ht : 0 < iouTh) (p q : Box R)
    (hu : 0 < interArea (rectOf center p) (rectOf center q) →
      0 < area (rectOf center p) + area (rectOf center q) - interArea (rectOf center p) (rectOf center q))
    (hgap : ¬ (emitIOU center eps (nmsBox center p) (nmsBox center q) < iouTh ∧
      iouTh < iou (rectOf center p) (rectOf center q))) :
    iouTh ≤ emitIOU center eps (nmsBox center p) (nmsBox center q) ↔ iouTh < iou (rectOf center p) (rectOf center q) := by
  constructor
  · intro h
    rw [emitIOU_eq] at h
    have hi : 0 ≤ interArea (rectOf center p) (rectOf center q) := mul_nonneg (le_max_right _ _) (le_max_right _ _)
    rcases hi.lt_or_eq with hi | hi
    · refine h.trans_lt ?_
      unfold iou
      exact div_lt_div_of_pos_left hi (hu hi) (by linarith)
    · rw [← hi, zero_div] at h
      exact absurd h (not_le.2 ht)
  · intro h
    by_contra hc
    exact hgap ⟨not_le.1 hc, h⟩

/-- For every number of batches, classes and boxes, all boxes, scores, thresholds and limits: the result is the greedy selection
of ONNX, no row is stored out of bounds, and the refined limit changes nothing.  Needed: the
overlap test agrees with the one of ONNX on different boxes. -/
theorem C75_nms_partial (center : Bool) (eps th iouTh : R) (maxOut : ℕ) (bs cs ss : ℕ) (boxes : ℕ → ℕ → Box R)
    (scores : ℕ → ℕ → ℕ → R) (order : ℕ → ℕ → List ℕ)
    (hord : ∀ b < bs, ∀ c < cs, IsStableOrder false (scores b c) ss (order b c))
    (htest : ∀ b < bs, ∀ s < ss, ∀ o < ss, s ≠ o →
      (iouTh ≤ emitIOU center eps (nmsBox center (boxes b s)) (nmsBox center (boxes b o)) ↔
        iouTh < iou (rectOf center (boxes b s)) (rectOf center (boxes b o)))) :
    nms center eps th iouTh maxOut bs cs ss boxes scores order =
      some (onnxNms center th iouTh maxOut bs cs boxes scores order) := by
  unfold nms onnxNms
  simp only
  obtain ⟨e0, e1⟩ := effectiveMax_spec th scores bs cs ss
  generalize effectiveMax th scores bs cs ss = em at e0 e1 ⊢
  generalize hm : min (min (maxOut : ℤ) (ss : ℤ)) em = mopc
  have m0 : 0 ≤ mopc := by omega
  have hcap : (bs : ℤ) * cs * mopc = ((bs * (cs * mopc.toNat) : ℕ) : ℤ) := by
    push_cast
    rw [Int.toNat_of_nonneg m0, mul_assoc]
  rw [hcap, if_neg (by omega)]
  have key : ∀ b < bs, ∀ c < cs, ∀ out : List (ℕ × ℕ × ℕ), out.length + mopc.toNat ≤ bs * (cs * mopc.toNat) →
      nmsClass th (scores b c)
        (fun s o => decide (emitIOU center eps (nmsBox center (boxes b s)) (nmsBox center (boxes b o)) ≥ iouTh))
        ss mopc ((bs * (cs * mopc.toNat) : ℕ) : ℤ) b c (order b c) out =
      some (out ++ (greedy (fun s o => iouTh < iou (rectOf center (boxes b s)) (rectOf center (boxes b o))) maxOut
        ((order b c).filter fun s => th < scores b c s)).map fun s => (b, c, s)) := by
    intro b hb c hc out hout
    have hperm := (hord b hb c hc).1
    have hlt : ∀ o ∈ order b c, o < ss := fun o ho => List.mem_range.1 (hperm.mem_iff.1 ho)
    have hnd : (order b c).Nodup := hperm.nodup_iff.2 List.nodup_range
    unfold nmsClass
    rw [nmsClass_from (order b c) _ hlt hnd (by
      show (out.length : ℤ) + (mopc - 0) ≤ _
      omega) m0]
    simp only [Bool.not_false, Bool.and_true, sub_zero]
    congr 3
    have hlen : ((order b c).filter fun s => decide (th < scores b c s)).length ≤ em.toNat := by
      have h1 := e1 b hb c hc
      rw [countAbove_eq, ← (hperm.filter _).length_eq] at h1
      omega
    have hlen2 : ((order b c).filter fun s => decide (th < scores b c s)).length ≤ ss := by
      refine (List.length_filter_le _ _).trans ?_
      rw [hperm.length_eq, List.length_range]
    have hlim : greedy (fun s o => iouTh < iou (rectOf center (boxes b s)) (rectOf center (boxes b o))) maxOut
        ((order b c).filter fun s => th < scores b c s) =
        greedy (fun s o => iouTh < iou (rectOf center (boxes b s)) (rectOf center (boxes b o))) mopc.toNat
        ((order b c).filter fun s => th < scores b c s) := by
      by_cases hle : maxOut ≤ ss ∧ (maxOut : ℤ) ≤ em
      · congr 1; omega
      · exact greedy_limit _ (by omega) (by omega)
    rw [hlim]
    refine greedy_congr ?_
    refine List.Pairwise.imp_of_mem (R := (· ≠ ·)) ?_ (hnd.sublist List.filter_sublist)
    intro s o hs ho hne
    have hs := hlt s (List.mem_of_mem_filter hs)
    have ho := hlt o (List.mem_of_mem_filter ho)
    rw [decide_eq_true_eq, ge_iff_le]
    exact htest b hb s hs o ho hne
  have hglen : ∀ b c, ((greedy (fun s o => iouTh < iou (rectOf center (boxes b s)) (rectOf center (boxes b o))) maxOut
        ((order b c).filter fun s => th < scores b c s)).map fun s => (b, c, s)).length ≤ mopc.toNat ∨ ¬ (b < bs ∧ c < cs) := by
    intro b c
    by_cases hbc : b < bs ∧ c < cs
    · left
      have h1 := e1 b hbc.1 c hbc.2
      have hperm := (hord b hbc.1 c hbc.2).1
      rw [countAbove_eq, ← (hperm.filter _).length_eq] at h1
      rw [List.length_map]
      by_cases hle : maxOut ≤ ss ∧ (maxOut : ℤ) ≤ em
      · exact (greedy_length _ _ _).trans (by omega)
      · have hlen2 : ((order b c).filter fun s => decide (th < scores b c s)).length ≤ ss := by
          refine (List.length_filter_le _ _).trans ?_
          rw [hperm.length_eq, List.length_range]
        rw [greedy_limit (m := mopc.toNat) _ (by omega) (by omega)]
        exact greedy_length _ _ _
    · exact Or.inr hbc
  have hmain := foldlM_append_some (fun out b => (List.range cs).foldlM (fun out c =>
      nmsClass th (scores b c)
        (fun s o => decide (emitIOU center eps (nmsBox center (boxes b s)) (nmsBox center (boxes b o)) ≥ iouTh))
        ss mopc ((bs * (cs * mopc.toNat) : ℕ) : ℤ) b c (order b c) out) out)
    (fun b => (List.range cs).flatMap fun c =>
      (greedy (fun s o => iouTh < iou (rectOf center (boxes b s)) (rectOf center (boxes b o))) maxOut
        ((order b c).filter fun s => th < scores b c s)).map fun s => (b, c, s))
    (List.range bs) (cs * mopc.toNat) [] (by
      intro b hb
      rw [List.length_flatMap]
      have : ((List.range cs).map fun c => ((greedy (fun s o => iouTh < iou (rectOf center (boxes b s)) (rectOf center (boxes b o))) maxOut
        ((order b c).filter fun s => th < scores b c s)).map fun s => (b, c, s)).length).sum ≤
          (List.range cs).length * mopc.toNat := by
        rw [← List.length_map (f := fun c => ((greedy (fun s o => iouTh < iou (rectOf center (boxes b s)) (rectOf center (boxes b o))) maxOut
        ((order b c).filter fun s => th < scores b c s)).map fun s => (b, c, s)).length)]
        refine List.sum_le_card_nsmul _ _ fun x hx => ?_
        obtain ⟨c, hc, rfl⟩ := List.mem_map.1 hx
        rcases hglen b c with h | h
        · exact h
        · exact absurd ⟨List.mem_range.1 hb, List.mem_range.1 hc⟩ h
      rwa [List.length_range] at this)
    (by
      intro b hb out hout
      rw [List.length_nil, List.length_range, zero_add] at hout
      refine foldlM_append_some _ _ (List.range cs) mopc.toNat out ?_ ?_
      · intro c hc
        rcases hglen b c with h | h
        · exact h
        · exact absurd ⟨List.mem_range.1 hb, List.mem_range.1 hc⟩ h
      · intro c hc out' hout'
        rw [List.length_range] at hout'
        exact key b (List.mem_range.1 hb) c (List.mem_range.1 hc) out' (by omega))
  rw [hmain, List.nil_append]

/-- Three boxes: the second overlaps the first, the third is apart. -/
def wBoxes : ℕ → ℕ → Box ℚ := fun _ s => if s = 0 then ⟨0, 0, 1, 1⟩ else if s = 1 then ⟨1, 1, 0, 0.1⟩ else ⟨5, 5, 6, 6⟩

def wScores : ℕ → ℕ → ℕ → ℚ := fun _ _ s => if s = 0 then 0.8 else if s = 1 then 0.7 else 0.9

example : IsStableOrder false (wScores 0 0) 3 [2, 0, 1] ∧
    nms false (1/100000000) 0 (1/2) 3 1 1 3 wBoxes wScores (fun _ _ => [2, 0, 1]) = some [(0, 0, 2), (0, 0, 0)] := by
  refine ⟨⟨by decide +kernel, ?_⟩, by decide +kernel⟩
  refine List.Pairwise.cons ?_ (List.Pairwise.cons ?_ (List.Pairwise.cons ?_ .nil)) <;> intro a ha <;>
    simp at ha
  · rcases ha with rfl | rfl <;> (left; simp [wScores]; norm_num)
  · subst ha; left; simp [wScores]; norm_num

example : (emitIOU false (1/100000000) (nmsBox false (wBoxes 0 0)) (nmsBox false (wBoxes 0 1)) ≥ (1/2 : ℚ)) ∧
    (iou (rectOf false (wBoxes 0 0)) (rectOf false (wBoxes 0 1)) > (1/2 : ℚ)) := by
  constructor <;> decide +kernel

/-- With the default overlap threshold, zero, boxes that do not overlap at all suppress each
other: ONNX keeps both. -/
theorem C75_default_threshold_false : ∃ (boxes : ℕ → ℕ → Box ℚ) (scores : ℕ → ℕ → ℕ → ℚ) (order : ℕ → ℕ → List ℕ),
    IsStableOrder false (scores 0 0) 2 (order 0 0) ∧
    interArea (rectOf false (boxes 0 0)) (rectOf false (boxes 0 1)) = 0 ∧
    nms false (1/100000000) 0 0 2 1 1 2 boxes scores order = some [(0, 0, 0)] ∧
    onnxNms false 0 0 2 1 1 boxes scores order = [(0, 0, 0), (0, 0, 1)] := by
  refine ⟨fun _ s => if s = 0 then ⟨0, 0, 1, 1⟩ else ⟨5, 5, 6, 6⟩, fun _ _ s => if s = 0 then 2 else 1, fun _ _ => [0, 1],
    ⟨by decide +kernel, ?_⟩, by decide +kernel, by decide +kernel, by decide +kernel⟩
  refine List.Pairwise.cons ?_ (List.Pairwise.cons ?_ .nil) <;> intro a ha <;> simp at ha
  subst ha; left; simp

end Verif.Props
