import Verif.Rewrite.BroadcastSem
import Verif.Decompose.Sum

/-! # Broadcasting is associative -/

namespace Verif.Rewrite

variable {V : Type} [Inhabited V]

theorem bdim_comm (a b : ℕ) : bdim a b = bdim b a := by
  unfold bdim
  split_ifs <;> simp_all

theorem bdim_assoc (a b c : ℕ) :
    ((bdim a b).bind fun d => bdim d c) = (bdim b c).bind fun d => bdim a d := by
  unfold bdim
  by_cases h1 : a = 1 <;> by_cases h2 : b = 1 <;> by_cases h3 : c = 1 <;> by_cases h4 : a = b <;>
    by_cases h5 : b = c <;> by_cases h6 : a = c <;> simp_all

theorem bdims_assoc : ∀ a b c : List ℕ,
    ((bdims a b).bind fun d => bdims d c) = (bdims b c).bind fun d => bdims a d
  | [], [], [] => rfl
  | [], [], _ :: _ => rfl
  | [], _ :: _, [] => rfl
  | _ :: _, [], [] => rfl
  | _ :: _, [], _ :: _ => rfl
  | [], y :: b, z :: c => by
    simp only [bdims, Option.bind_none]
    cases bdim y z <;> cases bdims b c <;> rfl
  | x :: a, y :: b, [] => by
    simp only [bdims, Option.bind_none]
    cases bdim x y <;> cases bdims a b <;> rfl
  | x :: a, y :: b, z :: c => by
    have h1 := bdim_assoc x y z
    have h2 := bdims_assoc a b c
    simp only [bdims]
    cases e1 : bdim x y with
    | none =>
      rw [e1] at h1
      cases e2 : bdim y z with
      | none => rfl
      | some d =>
        rw [e2] at h1
        simp only [Option.bind_some, Option.bind_none] at h1 ⊢
        cases bdims b c with
        | none => rfl
        | some t => simp [bdims, ← h1]
    | some d =>
      rw [e1] at h1
      cases e3 : bdims a b with
      | none =>
        rw [e3] at h2
        cases e2 : bdim y z with
        | none => rfl
        | some d' =>
          cases e4 : bdims b c with
          | none => simp
          | some t =>
            rw [e4] at h2
            simp only [Option.bind_some, Option.bind_none] at h2
            simp [bdims, ← h2]
      | some s =>
        rw [e3] at h2
        simp only [Option.bind_some, Option.map_some, bdims] at h1 h2 ⊢
        rw [h1, h2]
        cases bdim y z with
        | none => rfl
        | some d' =>
          cases bdims b c with
          | none => cases h : bdim x d' <;> simp [h]
          | some t => simp [bdims]

theorem padOnes_padOnes {r n : ℕ} {s : List ℕ} (h : s.length ≤ r) (h' : r ≤ n) :
    padOnes n (padOnes r s) = padOnes n s := by
  unfold padOnes
  rw [← List.append_assoc, List.replicate_append_replicate]
  simp only [List.length_append, List.length_replicate]
  congr 2
  omega

theorem bdims_length_none {a b : List ℕ} (h : a.length ≠ b.length) : bdims a b = none := by
  rcases e : bdims a b with _ | s
  · rfl
  · have := bdims_get e
    omega

theorem bdims_append : ∀ {a b : List ℕ} (c d : List ℕ), a.length = b.length →
    bdims (a ++ c) (b ++ d) = (bdims a b).bind fun s => (bdims c d).map (s ++ ·)
  | [], [], c, d, _ => by simp [bdims]
  | x :: a, y :: b, c, d, h => by
    simp only [List.cons_append, bdims]
    rw [bdims_append c d (by simpa using h)]
    cases bdim x y <;> cases bdims a b <;> cases bdims c d <;> simp
  | [], _ :: _, _, _, h => by simp at h
  | _ :: _, [], _, _, h => by simp at h

theorem bdims_replicate (n : ℕ) : bdims (List.replicate n 1) (List.replicate n 1) = some (List.replicate n 1) :=
  bdims_self _

/-- The broadcast at any common rank. -/
theorem bdims_padOnes {a b : List ℕ} {n : ℕ} (h : max a.length b.length ≤ n) :
    bdims (padOnes n a) (padOnes n b) = (bshape a b).map (padOnes n) := by
  have key : ∀ s : List ℕ, s.length ≤ max a.length b.length →
      padOnes n s = List.replicate (n - max a.length b.length) 1 ++ padOnes (max a.length b.length) s := by
    intro s hs
    unfold padOnes
    rw [← List.append_assoc, List.replicate_append_replicate]
    congr 2
    omega
  rw [key a (le_max_left _ _), key b (le_max_right _ _), bdims_append _ _ (by simp), bdims_replicate]
  unfold bshape
  simp only [Option.bind_some]
  rcases e : bdims (padOnes (max a.length b.length) a) (padOnes (max a.length b.length) b) with _ | s
  · rfl
  · have hs := bshape_length (a := a) (b := b) e
    simp only [Option.map_some]
    unfold padOnes
    rw [hs]

theorem padOnes_self {s : List ℕ} {n : ℕ} (h : s.length = n) : padOnes n s = s := by
  simp [padOnes, h]

/-- Broadcasting shapes is associative, failure included. -/
theorem bshape_assoc (a b c : List ℕ) :
    ((bshape a b).bind fun s => bshape s c) = (bshape b c).bind fun s => bshape a s := by
  set n := max (max a.length b.length) c.length with hn
  have h1 := bdims_assoc (padOnes n a) (padOnes n b) (padOnes n c)
  rw [bdims_padOnes (le_max_left _ _), bdims_padOnes (a := b) (b := c)
    (by rw [hn]; simp)] at h1
  have hl : ∀ s, bshape a b = some s → bshape s c = bdims (padOnes n s) (padOnes n c) := by
    intro s hs
    unfold bshape
    rw [bshape_length hs, hn]
  have hr : ∀ s, bshape b c = some s → bshape a s = bdims (padOnes n a) (padOnes n s) := by
    intro s hs
    unfold bshape
    rw [bshape_length hs, hn, max_assoc]
  rcases e1 : bshape a b with _ | s <;> rcases e2 : bshape b c with _ | t
  · rfl
  · rw [e1, e2] at h1
    simp only [Option.bind_none, Option.bind_some, Option.map_none, Option.map_some] at h1 ⊢
    rw [hr t e2, h1]
  · rw [e1, e2] at h1
    simp only [Option.bind_none, Option.bind_some, Option.map_none, Option.map_some] at h1 ⊢
    rw [hl s e1, h1]
  · rw [e1, e2] at h1
    simp only [Option.bind_some, Option.map_some] at h1 ⊢
    rw [hl s e1, hr t e2, h1]

theorem binary_comm {f : V → V → V} (hf : ∀ x y, f x y = f y x) (a b : Tensor V) :
    binary f a b = binary f b a := by
  unfold binary
  rw [bshape_comm]
  congr 1
  funext s
  exact build_congr fun i _ => hf _ _

theorem binary_assoc {f : V → V → V} (hf : ∀ x y z, f (f x y) z = f x (f y z)) (a b c : Tensor V) :
    ((binary f a b).bind fun t => binary f t c) = (binary f b c).bind fun t => binary f a t := by
  have h := bshape_assoc a.shape b.shape c.shape
  unfold binary
  rcases e1 : bshape a.shape b.shape with _ | s <;> rcases e2 : bshape b.shape c.shape with _ | t
  · rfl
  · rw [e1, e2] at h
    simp only [Option.bind_none, Option.bind_some, Option.map_none, Option.map_some, build_shape] at h ⊢
    rw [← h]
    rfl
  · rw [e1, e2] at h
    simp only [Option.bind_none, Option.bind_some, Option.map_none, Option.map_some, build_shape] at h ⊢
    rw [h]
    rfl
  · rw [e1, e2] at h
    simp only [Option.bind_some, Option.map_some, build_shape] at h ⊢
    rw [h]
    rcases e3 : bshape a.shape t with _ | r
    · rfl
    rw [e3] at h
    simp only [Option.map_some, Option.some.injEq]
    refine build_congr fun i hi => ?_
    have hil : i.length = r.length := hi.length_eq
    have b1 := bto_bshape h
    have b2 := bto_bshape_right e3
    rw [get_build _ (b1.inBounds hi), get_build _ (b2.inBounds hi), hf,
      Verif.Decompose.bidx_bidx (bto_bshape e1) (by have := b1.1; omega), Verif.Decompose.bidx_bidx (bto_bshape_right e1) (by have := b1.1; omega),
      Verif.Decompose.bidx_bidx (bto_bshape e2) (by have := b2.1; omega), Verif.Decompose.bidx_bidx (bto_bshape_right e2) (by have := b2.1; omega)]

end Verif.Rewrite
