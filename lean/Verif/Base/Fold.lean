import Mathlib.Logic.Function.Basic
import Mathlib.Data.List.Nodup
import Mathlib.Data.List.Basic

/-!
# Loops of writes to different places
-/

namespace Verif

/-- Writing `val a` at `key a` for each `a` of a list. -/
def writeAll {α β γ : Type} [DecidableEq β] (key : α → β) (val : α → γ) (l : List α)
    (buf : β → γ) : β → γ :=
  l.foldl (fun b a => Function.update b (key a) (val a)) buf

theorem writeAll_notin {α β γ : Type} [DecidableEq β] (key : α → β) (val : α → γ) (l : List α)
    (buf : β → γ) (x : β) (h : ∀ a ∈ l, key a ≠ x) : writeAll key val l buf x = buf x := by
  induction l generalizing buf with
  | nil => rfl
  | cons a l ih =>
    rw [writeAll, List.foldl_cons]
    have := ih (Function.update buf (key a) (val a)) (fun b hb => h b (by simp [hb]))
    rw [writeAll] at this
    rw [this, Function.update_of_ne]
    exact fun hx => h a (by simp) hx.symm

theorem writeAll_mem {α β γ : Type} [DecidableEq β] (key : α → β) (val : α → γ) (l : List α)
    (buf : β → γ) (a : α) (ha : a ∈ l) (hinj : ∀ b ∈ l, key b = key a → val b = val a) :
    writeAll key val l buf (key a) = val a := by
  induction l generalizing buf with
  | nil => simp at ha
  | cons b l ih =>
    rw [writeAll, List.foldl_cons]
    by_cases hm : a ∈ l
    · exact ih (Function.update buf (key b) (val b)) hm
        (fun c hc => hinj c (by simp [hc]))
    · have hab : a = b := by
        rcases List.mem_cons.1 ha with h | h
        · exact h
        · exact absurd h hm
      subst hab
      by_cases hk : ∃ c ∈ l, key c = key a
      · obtain ⟨c, hc, hck⟩ := hk
        have := ih (Function.update buf (key a) (val a))
        have h2 : ∀ l' : List α, (∀ c ∈ l', key c = key a → val c = val a) → ∀ buf' : β → γ,
            buf' (key a) = val a → writeAll key val l' buf' (key a) = val a := by
          intro l'
          induction l' with
          | nil => intro _ buf' h; exact h
          | cons d l' ih' =>
            intro h buf' hb
            rw [writeAll, List.foldl_cons]
            refine ih' (fun c hc => h c (by simp [hc])) _ ?_
            by_cases hd : key d = key a
            · rw [← hd, Function.update_self]; exact h d (by simp) hd
            · rw [Function.update_of_ne (Ne.symm hd)]; exact hb
        exact h2 l (fun c hc => hinj c (by simp [hc])) _ (by simp)
      · have := writeAll_notin key val l (Function.update buf (key a) (val a)) (key a)
          (fun c hc h => hk ⟨c, hc, h⟩)
        rw [writeAll] at this
        rw [this]; simp

end Verif
