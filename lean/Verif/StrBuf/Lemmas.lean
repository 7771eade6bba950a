import Verif.StrBuf.Model
import Mathlib.Tactic
/-!
# Tensors of strings in one buffer: lemmas (C131)
-/
namespace Verif.StrBuf

theorem poke_eq (pre rest : Mem) (o : Option Nat) (c : Nat) :
    poke (pre ++ o :: rest) pre.length c = some (pre ++ some c :: rest) := by
  unfold poke
  rw [if_pos (by simp)]
  simp

theorem memcpy_eq : ∀ (s : List Nat) (pre fresh rest : Mem), fresh.length = s.length →
    memcpy (pre ++ fresh ++ rest) pre.length s = some (pre ++ s.map some ++ rest) := by
  intro s
  induction s with
  | nil =>
    intro pre fresh rest h
    have : fresh = [] := List.length_eq_zero_iff.1 h
    subst this
    rfl
  | cons c s ih =>
    intro pre fresh rest h
    cases fresh with
    | nil => simp at h
    | cons o fresh =>
      have e : pre ++ o :: fresh ++ rest = pre ++ o :: (fresh ++ rest) := by simp
      rw [memcpy, e, poke_eq]
      simp only
      have := ih (pre ++ [some c]) fresh rest (by simpa using h)
      simp only [List.length_append, List.length_singleton, List.append_assoc, List.cons_append,
        List.nil_append] at this
      rw [this]
      simp

theorem copyStr_eq (s : List Nat) (pre rest : Mem) (n : Nat) (hn : n = s.length + 1) :
    copyStr (pre ++ List.replicate n none ++ rest) pre.length s =
      some (pre ++ (s.map some ++ [some 0]) ++ rest) := by
  subst hn
  have e : pre ++ List.replicate (s.length + 1) none ++ rest =
      pre ++ List.replicate s.length none ++ (none :: rest) := by
    rw [List.replicate_succ']; simp
  rw [copyStr, e, memcpy_eq s pre _ _ (by simp)]
  simp only
  have := poke_eq (pre ++ s.map some) rest none 0
  simp only [List.length_append, List.length_map] at this
  rw [this]
  simp

/-- The characters of all strings. -/
def flat : List (List Nat) → Mem
  | [] => []
  | s :: ss => (s.map some ++ [some 0]) ++ flat ss

theorem total_eq : ∀ (ss : List (List Nat)) (n : Nat),
    ss.foldl (fun n s => n + (s.length + 1)) n = n + (flat ss).length := by
  intro ss
  induction ss with
  | nil => intro n; rfl
  | cons s ss ih => intro n; rw [List.foldl_cons, ih]; simp [flat]; omega

theorem cstr_eq (s : List Nat) (rest : Mem) :
    cstr (s.map some ++ [some 0] ++ rest) = some (s.takeWhile fun c => c != 0) := by
  induction s with
  | nil => rfl
  | cons c s ih =>
    cases c with
    | zero => rfl
    | succ c =>
      have : ((c + 1) :: s).map some ++ [some 0] ++ rest =
        some (c + 1) :: (s.map some ++ [some 0] ++ rest) := rfl
      rw [this, cstr, ih]
      rfl

theorem takeWhile_self (s : List Nat) (h : 0 ∉ s) : (s.takeWhile fun c => c != 0) = s := by
  induction s with
  | nil => rfl
  | cons c s ih =>
    simp only [List.mem_cons, not_or] at h
    have hc : (c != 0) = true := by simpa using fun h' => h.1 h'.symm
    rw [List.takeWhile_cons, if_pos hc, ih h.2]

theorem copyAll_ok : ∀ (ss done : List (List Nat)) (ps : List Nat), ps.length = done.length →
    (∀ (i : Nat) (s : List Nat), done[i]? = some s → ∃ p, ps[i]? = some p ∧ ∀ rest : Mem,
      ∃ rest', ((flat done) ++ rest).drop p = s.map some ++ [some 0] ++ rest') →
    ∃ qs, copyAll ss (flat done).length
        { ptrs := ps, chars := flat done ++ List.replicate (flat ss).length none } =
        some { ptrs := qs, chars := flat (done ++ ss) } ∧ qs.length = (done ++ ss).length ∧
      (∀ (i : Nat) (s : List Nat), (done ++ ss)[i]? = some s → ∃ p, qs[i]? = some p ∧ ∀ rest : Mem,
        ∃ rest', ((flat (done ++ ss)) ++ rest).drop p = s.map some ++ [some 0] ++ rest') := by
  intro ss
  induction ss with
  | nil =>
    intro done ps hl h
    exact ⟨ps, by simp [copyAll, flat], by simpa using hl, by simpa using h⟩
  | cons s ss ih =>
    intro done ps hl h
    have hflat : flat (done ++ [s]) = flat done ++ (s.map some ++ [some 0]) := by
      clear hl h ih
      induction done with
      | nil => simp [flat]
      | cons d ds ih => simp only [List.cons_append, flat, ih]; simp
    have hlen : (flat (s :: ss)).length = (s.length + 1) + (flat ss).length := by
      simp [flat]; omega
    obtain ⟨qs, h1, h2, h3⟩ := ih (done ++ [s]) (ps ++ [(flat done).length]) (by simp [hl]) (by
      intro i t ht
      by_cases hi : i < done.length
      · rw [List.getElem?_append_left hi] at ht
        obtain ⟨p, hp, hr⟩ := h i t ht
        refine ⟨p, by rw [List.getElem?_append_left (by omega)]; exact hp, ?_⟩
        intro rest
        rw [hflat, List.append_assoc]
        exact hr _
      · have hi' : i = done.length := by
          by_contra hc
          rw [List.getElem?_eq_none (by simp; omega)] at ht
          cases ht
        subst hi'
        simp only [List.getElem?_append_right (le_refl _), Nat.sub_self, List.getElem?_cons_zero,
          Option.some.injEq] at ht
        subst ht
        refine ⟨(flat done).length, by rw [← hl]; simp, ?_⟩
        intro rest
        refine ⟨rest, ?_⟩
        rw [hflat, List.append_assoc, List.drop_left])
    have e : done ++ s :: ss = done ++ [s] ++ ss := by simp
    refine ⟨qs, ?_, by rw [e]; exact h2, by rw [e]; exact h3⟩
    have hc := copyStr_eq s (flat done) (List.replicate (flat ss).length none) _ rfl
    have hrep : flat done ++ List.replicate (flat (s :: ss)).length none =
        flat done ++ List.replicate (s.length + 1) none ++ List.replicate (flat ss).length none := by
      rw [hlen, List.append_assoc, List.replicate_add]
    rw [copyAll, hrep, hc]
    simp only
    rw [← hflat, e, ← h1]
    congr 1
    rw [hflat]
    simp

theorem build_ok (ss : List (List Nat)) :
    ∃ b, build ss = some b ∧ b.ptrs.length = ss.length ∧
      ∀ (i : Nat) (s : List Nat), ss[i]? = some s → b.Reads i (s.takeWhile fun c => c != 0) := by
  obtain ⟨qs, h1, h2, h3⟩ := copyAll_ok ss [] [] rfl (by intro i s h; simp at h)
  refine ⟨{ ptrs := qs, chars := flat ss }, ?_, by simpa using h2, ?_⟩
  · unfold build
    rw [totalLen, total_eq, Nat.zero_add]
    exact h1
  · intro i s hs
    obtain ⟨p, hp, hr⟩ := h3 i s (by simpa using hs)
    obtain ⟨rest', hr'⟩ := hr []
    refine ⟨p, hp, ?_⟩
    simp only [List.nil_append, List.append_nil] at hr'
    show cstr ((flat ss).drop p) = _
    rw [hr', cstr_eq]

end Verif.StrBuf
