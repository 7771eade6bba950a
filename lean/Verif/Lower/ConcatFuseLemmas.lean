import Verif.Lower.ConcatFuseModel
import Verif.Lower.TransposeLemmas

/-!
Lemmas on the fused operator ConcatShapeTranspose: its loop simulates the loop of Concat, with permuted indices.
-/

namespace Verif.Lower

variable {R : Type*}

/-- `f` is the transposition of `c`. -/
def TransposeOf (perm : List ℕ) (c f : Mem R) : Prop :=
  f.shape = transposeDims c.shape perm ∧ ∀ i, InShape i c.shape → f.data (fusedWrite perm i) = c.data i

theorem fusedWrite_eq (perm : List ℕ) (w : Idx) : fusedWrite perm w = permuted perm w := rfl

theorem store_sim {perm : List ℕ} {c f c' : Mem R} {w : Idx} {v : R} (hp : perm.Perm (List.range c.shape.length))
    (h : TransposeOf perm c f) (hs : c.store w v = some c') :
    ∃ f', f.store (fusedWrite perm w) v = some f' ∧ TransposeOf perm c' f' ∧ c'.shape = c.shape := by
  unfold Mem.store at hs
  split at hs
  · rename_i hw
    have e := Option.some.inj hs
    subst e
    have hw' : InShape (fusedWrite perm w) f.shape := by
      rw [h.1]; exact permuted_inShape (perm_lt hp) hw
    refine ⟨⟨f.shape, fun i => if i = fusedWrite perm w then v else f.data i⟩, by unfold Mem.store; rw [if_pos hw'], ⟨h.1, ?_⟩, rfl⟩
    intro i hi
    simp only
    by_cases hiw : i = w
    · subst hiw; simp
    · rw [if_neg hiw, if_neg]
      · exact h.2 i hi
      · intro he
        exact hiw (permuted_inj hp hi.length hw.length he)
  · cases hs

theorem foldl_sim {perm : List ℕ} (m : Mem R) (g : Idx → Idx) : ∀ (L : List Idx) (c f c' : Mem R),
    perm.Perm (List.range c.shape.length) → TransposeOf perm c f →
    L.foldlM (fun o i => (m.load i).bind fun v => o.store (g i) v) c = some c' →
    ∃ f', L.foldlM (fun o i => (m.load i).bind fun v => o.store (fusedWrite perm (g i)) v) f = some f' ∧
      TransposeOf perm c' f' ∧ c'.shape = c.shape
  | [], c, f, c', _, h, hs => by
    rw [List.foldlM_nil] at hs
    have e : c = c' := Option.some.inj hs
    subst e
    exact ⟨f, rfl, h, rfl⟩
  | i :: L, c, f, c', hp, h, hs => by
    rw [List.foldlM_cons] at hs
    cases hv : m.load i with
    | none => rw [hv] at hs; cases hs
    | some v =>
      rw [hv] at hs
      cases hst : c.store (g i) v with
      | none => simp only [Option.bind_some, hst] at hs; cases hs
      | some c1 =>
        simp only [Option.bind_some, hst] at hs
        obtain ⟨f1, h1, h2, h3⟩ := store_sim hp h hst
        obtain ⟨f', h4, h5, h6⟩ := foldl_sim m g L c1 f1 c' (by rw [h3]; exact hp) h2 hs
        refine ⟨f', ?_, h5, h6.trans h3⟩
        rw [List.foldlM_cons, hv]
        simp only [Option.bind_some, h1]
        exact h4

theorem fusedLoop_sim {perm : List ℕ} {ub : List ℤ} {axis : ℕ} : ∀ (inputs : List (Mem R)) (i : ℕ) (off : ℤ) (c f c' : Mem R),
    perm.Perm (List.range c.shape.length) → TransposeOf perm c f → concatLoop ub axis inputs i off c = some c' →
    ∃ f', fusedLoop ub axis perm inputs i off f = some f' ∧ TransposeOf perm c' f' ∧ c'.shape = c.shape
  | [], _, _, c, f, c', _, h, hs => by
    rw [concatLoop] at hs
    have e := Option.some.inj hs
    subst e
    exact ⟨f, rfl, h, rfl⟩
  | m :: rest, i, off, c, f, c', hp, h, hs => by
    rw [concatLoop] at hs
    cases h1 : concatOne ub axis i off m c with
    | none => rw [h1] at hs; cases hs
    | some c1 =>
      rw [h1, Option.bind_some] at hs
      obtain ⟨f1, h2, h3, h4⟩ := foldl_sim m (concatWrite ub.length axis i off) _ c f c1 hp h h1
      obtain ⟨f', h5, h6, h7⟩ := fusedLoop_sim rest (i + 1) _ c1 f1 c' (by rw [h4]; exact hp) h3 hs
      refine ⟨f', ?_, h6, h7.trans h4⟩
      have h2' : fusedOne ub axis i off perm m f = some f1 := h2
      rw [fusedLoop, h2', Option.bind_some]
      exact h5

/-- A position in a concatenation is in one of its parts. -/
theorem cover : ∀ (sizes : List ℤ), (∀ s ∈ sizes, 0 ≤ s) → ∀ y, 0 ≤ y → y < sizes.sum →
    ∃ (k : ℕ) (s : ℤ), sizes[k]? = some s ∧ 0 ≤ y - (sizes.take k).sum ∧ y - (sizes.take k).sum < s
  | [], _, y, h0, h1 => by simp at h1; omega
  | s :: sizes, h, y, h0, h1 => by
    by_cases hy : y < s
    · exact ⟨0, s, rfl, by simpa using h0, by simpa using hy⟩
    · rw [List.sum_cons] at h1
      obtain ⟨k, t, h2, h3, h4⟩ := cover sizes (fun s hs => h s (List.mem_cons_of_mem _ hs)) (y - s) (by omega) (by omega)
      refine ⟨k + 1, t, by simpa using h2, ?_, ?_⟩
      · rw [List.take_succ_cons, List.sum_cons]; omega
      · rw [List.take_succ_cons, List.sum_cons]; omega

theorem shapeStores_spec (dims : List ℤ) (s L : ℤ) (hs : 0 ≤ s) (hL : s + L ≤ dims.length) : ∀ (n k : ℕ) (o : Mem ℤ),
    o.shape = [L] → (k : ℤ) + n ≤ L →
    ∃ o', shapeStores dims s n k o = some o' ∧ o'.shape = [L] ∧ (∀ j : ℕ, j < k → o'.data [(j : ℤ)] = o.data [(j : ℤ)]) ∧
      ∀ j : ℕ, k ≤ j → j < k + n → o'.data [(j : ℤ)] = dims.getD (s + j).toNat 0
  | 0, k, o, ho, _ => ⟨o, rfl, ho, fun _ _ => rfl, fun j h1 h2 => by omega⟩
  | n + 1, k, o, ho, hk => by
    have hlt : (s + k).toNat < dims.length := by push_cast at hk; omega
    have hin : InShape [(k : ℤ)] o.shape := by
      rw [ho, inShape_cons]; push_cast at hk; exact ⟨by omega, inShape_nil⟩
    obtain ⟨o', h1, h2, h3, h4⟩ := shapeStores_spec dims s L hs hL n (k + 1)
      ⟨o.shape, fun i => if i = [(k : ℤ)] then dims[(s + k).toNat] else o.data i⟩ ho (by push_cast at hk ⊢; omega)
    refine ⟨o', ?_, h2, ?_, ?_⟩
    · rw [shapeStores, if_pos (by omega), List.getElem?_eq_getElem hlt, Option.bind_some]
      unfold Mem.store
      rw [if_pos hin, Option.bind_some]
      exact h1
    · intro j hj
      rw [h3 j (by omega)]
      simp only
      rw [if_neg]
      intro he
      simp only [List.cons.injEq, and_true] at he
      omega
    · intro j hj1 hj2
      by_cases hjk : j = k
      · subst hjk
        rw [h3 j (by omega)]
        simp [List.getD_eq_getElem?_getD, List.getElem?_eq_getElem hlt]
      · exact h4 j (by omega) (by omega)

end Verif.Lower
