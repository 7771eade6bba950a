import Verif.Reuse.Model
import Verif.Fusion.Elements

/-!
# Lemmas about loops that write into the buffer of an operand
-/

namespace Verif.Reuse
open Verif.Fusion

variable {α : Type}

theorem zip_congr {β δ : Type} {f g : β × Nat → Option δ} (os : List β)
    (hfg : ∀ i o, os[i]? = some o → f (o, i) = g (o, i)) : os.zipIdx.mapM f = os.zipIdx.mapM g := by
  have := mapM_zip (h := fun x : β => x) (f := f) (g := g) os 0 (by simpa using hfg)
  simpa using this

theorem isBufferReusable_facts {x : Operand} {out : List (Option Nat)}
    (h : isBufferReusable x out = true) : x.uses = 1 ∧ x.ty = out ∧ x.ty.all Option.isSome = true := by
  unfold isBufferReusable at h
  split at h
  · exact absurd h (by simp)
  next h1 =>
  split at h
  · exact absurd h (by simp)
  next h2 =>
  split at h
  · exact absurd h (by simp)
  split at h
  · exact absurd h (by simp)
  next h3 =>
  have h3 : x.ty.length = out.length := by simpa using h3
  refine ⟨by simpa using h1, ?_, ?_⟩
  · apply List.ext_getElem?
    intro i
    by_cases hi : i < x.ty.length
    · have := List.all_eq_true.1 h i (List.mem_range.2 hi)
      simpa using this
    · rw [List.getElem?_eq_none (by omega), List.getElem?_eq_none (by omega)]
  · cases hb : x.ty.all Option.isSome with
    | true => rfl
    | false => rw [hb] at h2; exact absurd rfl h2

theorem loop_spec {sem : Sem α} {k : Kind} {xs : List Operand} {out : Nat}
    (order : List (List Nat)) (hn : order.Nodup) (hout : ∀ idx ∈ order, ∀ i x, xs[i]? = some x →
      x.buf = out → operandIndex k x.shape idx i = idx) (m : Mem α) :
    (∀ idx ∈ order, loop sem k xs out order m out idx = eltAt sem k xs m idx) ∧
      (∀ idx, idx ∉ order → loop sem k xs out order m out idx = m out idx) ∧
      ∀ b, b ≠ out → loop sem k xs out order m b = m b := by
  induction order generalizing m with
  | nil => exact ⟨by simp, fun _ _ => rfl, fun _ _ => rfl⟩
  | cons a l ih =>
    rw [List.nodup_cons] at hn
    obtain ⟨h1, h2, h3⟩ := ih hn.2 (fun idx hidx => hout idx (List.mem_cons_of_mem _ hidx)) (body sem k xs out m a)
    have hother : ∀ b, b ≠ out → body sem k xs out m a b = m b := fun b hb =>
      Function.update_of_ne hb _ _
    have hsame : ∀ idx, idx ≠ a → body sem k xs out m a out idx = m out idx := by
      intro idx hi
      unfold body
      rw [Function.update_self, Function.update_of_ne hi]
    have helt : ∀ idx ∈ l, idx ≠ a → eltAt sem k xs (body sem k xs out m a) idx = eltAt sem k xs m idx := by
      intro idx hil hia
      unfold eltAt
      congr 1
      apply zip_congr
      intro i x hx
      by_cases hb : x.buf = out
      · unfold Tensor.read
        dsimp only
        rw [hout idx (List.mem_cons_of_mem _ hil) i x hx hb, hb, hsame idx hia]
      · rw [hother _ hb]
    refine ⟨?_, ?_, ?_⟩
    · intro idx hidx
      show loop sem k xs out l (body sem k xs out m a) out idx = _
      rcases List.mem_cons.1 hidx with rfl | hidx
      · rw [h2 _ hn.1]
        unfold body
        rw [Function.update_self, Function.update_self]
      · rw [h1 idx hidx]
        exact helt idx hidx fun h => hn.1 (h ▸ hidx)
    · intro idx hidx
      show loop sem k xs out l (body sem k xs out m a) out idx = _
      rw [List.mem_cons, not_or] at hidx
      rw [h2 idx hidx.2, hsame idx hidx.1]
    · intro b hb
      show loop sem k xs out l (body sem k xs out m a) b = _
      rw [h3 b hb, hother b hb]

end Verif.Reuse
