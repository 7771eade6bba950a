import Verif.Rewrite.ConcatSem
import Verif.Rewrite.TransposeLemmas

/-! # Swapping Transpose and Concat keeps results -/

namespace Verif.Rewrite

variable {V : Type} [Inhabited V] {A : Alg V} {env : ℕ → Tensor V}

theorem evalL_forall₂ : ∀ {es : List (Ex V)} {vs : List (Option (Tensor V))},
    evalL A env es = some vs ↔ List.Forall₂ (fun e v => eval A env e = some v) es vs
  | [], vs => by rw [evalL_nil]; simp
  | e :: es, vs => by
    rw [evalL_cons, List.forall₂_cons_left_iff]
    constructor
    · rintro ⟨v, ws, h1, h2, rfl⟩
      exact ⟨v, ws, h1, evalL_forall₂.1 h2, rfl⟩
    · rintro ⟨v, ws, h1, h2, rfl⟩
      exact ⟨v, ws, h1, evalL_forall₂.2 h2, rfl⟩

theorem typedL_iff : ∀ {es : List (Ex V)}, TypedL A env es ↔ ∀ e ∈ es, Typed A env e
  | [] => by simp
  | e :: es => by rw [typedL_cons, typedL_iff]; simp

/-- An evaluated Concat. -/
theorem eval_concat {axis : ℤ} {es : List (Ex V)} {ty : STy} {v : Option (Tensor V)} :
    eval A env (.op (.concat axis) es ty) = some v ↔
      ∃ ts y, List.Forall₂ (fun e t => eval A env e = some (some t)) es ts ∧
        concat ts axis = some y ∧ v = some y := by
  rw [eval_op]
  constructor
  · rintro ⟨xs, t, hx, ht, rfl⟩
    simp only [sem, Option.bind_eq_some_iff] at ht
    obtain ⟨ts, h1, h2⟩ := ht
    refine ⟨ts, t, ?_, h2, rfl⟩
    rw [evalL_forall₂] at hx
    rw [mapM_forall₂] at h1
    rw [List.forall₂_iff_get] at *
    refine ⟨hx.1.trans h1.1, fun k g1 g2 => ?_⟩
    have a1 := hx.2 k g1 (by have := hx.1; omega)
    have a2 := h1.2 k (by have := hx.1; omega) g2
    rw [a1]
    exact congrArg some a2
  · rintro ⟨ts, y, h1, h2, rfl⟩
    refine ⟨ts.map some, y, ?_, ?_, rfl⟩
    · rw [evalL_forall₂, List.forall₂_map_right_iff]
      exact h1
    · simp only [sem, Option.bind_eq_some_iff]
      refine ⟨ts, ?_, h2⟩
      rw [mapM_forall₂, List.forall₂_map_left_iff, List.forall₂_same]
      intros; rfl

theorem indexInPerm_spec {p : List ℤ} {axis : ℤ} {k : ℕ} (h : indexInPerm p axis = some k) :
    p[k]? = some axis := by
  unfold indexInPerm at h
  obtain ⟨hk, hp, -⟩ := List.findIdx?_eq_some_iff_getElem.1 h
  rw [List.getElem?_eq_getElem hk]
  simpa using hp

theorem swapTransposeConcat_sound : Sound A swapTransposeConcat := by
  intro env e e' hr ht v hv
  unfold swapTransposeConcat at hr
  split at hr
  · rename_i p0 axis inputs t1 ty
    split at hr
    · rename_i hall
      clear hall
      split at hr
      · rename_i p
        split at hr
        · rename_i k hk
          cases hr
          obtain ⟨y, q, z, hy, hq, hz, rfl⟩ := eval_transpose.1 hv
          obtain ⟨ts, y', hts, hc, he⟩ := eval_concat.1 hy
          cases he
          obtain ⟨ax, hax, htr, hcat⟩ := concat_transpose hc hz
          obtain ⟨n, hn, hna⟩ := forall₂_getElem? (mapM_forall₂.1 hq) (indexInPerm_spec hk)
          rw [hax] at hna
          cases hna
          have hperm := (transpose_some.1 hz).1
          have hkk : q.idxOf ax = k := by
            obtain ⟨hkl, rfl⟩ := List.getElem?_eq_some_iff.1 hn
            exact hperm.2.1.idxOf_getElem k hkl
          have hv' : eval A env (.op (.concat k)
              (inputs.map fun i => .op (.transpose (some p)) [i] (.unranked i.ty.elt)) ty) =
                some (some z) := by
            refine eval_concat.2 ⟨ts.map (tr q), z, ?_, hkk ▸ hcat, rfl⟩
            rw [List.forall₂_map_left_iff, List.forall₂_map_right_iff]
            clear hcat hc hv hy hk ht
            induction hts with
            | nil => exact .nil
            | cons h _ ih =>
              refine .cons ?_ (ih ?_)
              · have := htr _ (List.mem_cons_self ..)
                exact eval_transpose.2 ⟨_, q, _, h, this.1 ▸ hq, this.2, rfl⟩
              · exact fun u hu => htr u (by simp [hu])
          rw [typed_op, typedL_cons, typed_op] at ht
          refine ⟨hv', ?_, rfl⟩
          rw [typed_op]
          refine ⟨fun t h => ht.1 t (by rw [hv]; rw [hv'] at h; exact h), ?_, ?_⟩
          · intro a ha
            simp only [List.map_map, List.mem_map, Function.comp] at ha
            obtain ⟨i, hi, rfl⟩ := ha
            have e1 : ty.elt = t1.elt := ht.2.1
            rw [e1]
            exact ht.2.2.1.2.1 i.ty (List.mem_map_of_mem hi)
          · rw [typedL_iff]
            intro e he
            obtain ⟨i, hi, rfl⟩ := List.mem_map.1 he
            refine typed_unranked ?_ rfl
            rw [typedL_cons]
            exact ⟨typedL_iff.1 ht.2.2.1.2.2 i hi, typedL_nil⟩
        · cases hr
      · cases hr
    · cases hr
  · cases hr

end Verif.Rewrite
