import Verif.OpStats.Model
import Verif.Signature.Json
import Mathlib.Data.List.Basic
/-!
# Statistics of operations: lemmas (C126)
-/
namespace Verif.OpStats

open Verif.Signature (Str lit Json JText JMembers decimal PlainChars IsSpace jsonString natText digit)

/-! ## Keys -/

theorem operandText_eq (t : VTy) (h : t ≠ .unranked) : operandText t = some t.kind.text := by
  cases t <;> first | rfl | exact absurd rfl h

theorem appendOperands_eq (ts : List VTy) (s : Str) (h : ∀ t ∈ ts, t ≠ .unranked) :
    appendOperands s ts = some (s ++ (ts.map fun t => t.kind.text).flatten) := by
  induction ts generalizing s with
  | nil => simp [appendOperands]
  | cons t ts ih =>
    simp only [appendOperands, operandText_eq t (h t (by simp))]
    rw [ih _ (fun t ht => h t (by simp [ht]))]
    simp

theorem scalarTest_eq (t : VTy) (h : t ≠ .seq true) : scalarTest t = some t.isScalar := by
  cases t with
  | none => rfl
  | tensor s =>
    simp only [scalarTest, VTy.isScalar]
    congr 1
    cases s with
    | nil => rfl
    | cons a s =>
      cases s with
      | nil => by_cases h : a = 1 <;> simp [h]
      | cons b s => simp
  | unranked => rfl
  | seq b =>
    cases b with
    | false => rfl
    | true => exact absurd rfl h
  | other => rfl

theorem allOf_eq (ts : List VTy) (h : ∀ t ∈ ts, t ≠ .seq true) :
    allOf ts = some (ts.all VTy.isScalar) := by
  induction ts with
  | nil => rfl
  | cons t ts ih =>
    simp only [allOf, scalarTest_eq t (h t (by simp)), List.all_cons]
    cases ht : t.isScalar with
    | false => rfl
    | true =>
      simp only [Bool.true_and]
      exact ih (fun t ht => h t (by simp [ht]))

theorem opKey_eq (op : Op) (h : op.Fine) : opKey op = some op.key := by
  unfold opKey Op.key Op.isScalar
  rw [appendOperands_eq _ _ h.1, allOf_eq _ (fun t ht => h.2 t (by simp [ht])),
    allOf_eq _ (fun t ht => h.2 t (by simp [ht]))]
  simp only
  split <;> simp

theorem skipped_iff (op : Op) : skipped op = true ↔ ¬ op.Counted := by
  unfold skipped Op.Counted
  simp only [Bool.or_eq_true, decide_eq_true_eq]
  tauto

/-! ## Counts -/

theorem keys_bump (k : Str) (m : List (Str × Nat)) (x : Str) :
    x ∈ (bump k m).map Prod.fst ↔ x = k ∨ x ∈ m.map Prod.fst := by
  induction m with
  | nil => simp [bump]
  | cons p m ih =>
    obtain ⟨k', c⟩ := p
    unfold bump
    by_cases h : k' = k
    · rw [if_pos h]
      simp only [List.map_cons, List.mem_cons]
      subst h
      tauto
    · rw [if_neg h]
      simp only [List.map_cons, List.mem_cons, ih]
      tauto

theorem nodup_bump (k : Str) (m : List (Str × Nat)) (h : (m.map Prod.fst).Nodup) :
    ((bump k m).map Prod.fst).Nodup := by
  induction m with
  | nil => simp [bump]
  | cons p m ih =>
    obtain ⟨k', c⟩ := p
    simp only [List.map_cons, List.nodup_cons] at h
    unfold bump
    by_cases hk : k' = k
    · rw [if_pos hk]
      simpa using h
    · rw [if_neg hk]
      simp only [List.map_cons, List.nodup_cons]
      refine ⟨?_, ih h.2⟩
      rw [keys_bump]
      rintro (h1 | h1)
      · exact hk h1
      · exact h.1 h1

theorem countOf_bump (k : Str) (m : List (Str × Nat)) (x : Str) :
    countOf (bump k m) x = countOf m x + (if k = x then 1 else 0) := by
  induction m with
  | nil => simp [bump, countOf]
  | cons p m ih =>
    obtain ⟨k', c⟩ := p
    unfold bump
    by_cases hk : k' = k
    · rw [if_pos hk]
      subst hk
      simp only [countOf]
      split <;> rfl
    · rw [if_neg hk]
      simp only [countOf, ih]
      by_cases hx : k' = x
      · have : ¬ k = x := fun h => hk (hx.trans h.symm)
        simp [hx, this]
      · simp [hx]

theorem countOps_eq (ops : List Op) (m : List (Str × Nat)) (hn : (m.map Prod.fst).Nodup)
    (hf : ∀ op ∈ ops, op.Counted → op.Fine) :
    ∃ m', countOps ops m = some m' ∧ (m'.map Prod.fst).Nodup ∧
      (∀ k, countOf m' k = countOf m k + howMany ops k) ∧
      (∀ k, k ∈ m'.map Prod.fst ↔ k ∈ m.map Prod.fst ∨ 0 < howMany ops k) := by
  induction ops generalizing m with
  | nil => exact ⟨m, rfl, hn, by simp [howMany], by simp [howMany]⟩
  | cons op ops ih =>
    have hf' : ∀ op ∈ ops, op.Counted → op.Fine := fun o ho => hf o (by simp [ho])
    unfold countOps
    by_cases hs : skipped op = true
    · rw [if_pos hs]
      have hc := (skipped_iff op).1 hs
      have hh : ∀ k, howMany (op :: ops) k = howMany ops k := by
        intro k
        simp [howMany, hc]
      obtain ⟨m', h1, h2, h3, h4⟩ := ih m hn hf'
      exact ⟨m', h1, h2, fun k => by rw [hh]; exact h3 k, fun k => by rw [hh]; exact h4 k⟩
    · rw [if_neg hs]
      have hc : op.Counted := by
        by_contra h
        exact hs ((skipped_iff op).2 h)
      rw [opKey_eq op (hf op (by simp) hc)]
      have hh : ∀ k, howMany (op :: ops) k = (if op.key = k then 1 else 0) + howMany ops k := by
        intro k
        unfold howMany
        by_cases hk : op.key = k
        · simp [hc, hk]; omega
        · simp [hk]
      obtain ⟨m', h1, h2, h3, h4⟩ := ih (bump op.key m) (nodup_bump _ _ hn) hf'
      refine ⟨m', h1, h2, ?_, ?_⟩
      · intro k
        rw [h3, countOf_bump, hh]
        omega
      · intro k
        rw [h4, keys_bump, hh]
        by_cases hk : op.key = k
        · rw [if_pos hk]
          constructor
          · intro _
            right
            omega
          · intro _
            exact Or.inl (Or.inl hk.symm)
        · have hk' : ¬ k = op.key := fun h => hk h.symm
          simp [hk, hk']

/-! ## Order -/

theorem less_iff (a b : Str) : less a b = true ↔ strLt a b := by
  induction a generalizing b with
  | nil => cases b <;> simp [less, strLt]
  | cons x a ih =>
    cases b with
    | nil => simp [less, strLt]
    | cons y b =>
      simp only [less, strLt, Bool.or_eq_true, decide_eq_true_eq, Bool.and_eq_true, beq_iff_eq, ih]
      have : x.toNat = y.toNat ↔ x = y := ⟨fun h => Char.toNat_inj.1 h, fun h => by rw [h]⟩
      rw [this]

theorem strLt_trans (a b c : Str) (h1 : strLt a b) (h2 : strLt b c) : strLt a c := by
  induction a generalizing b c with
  | nil =>
    cases b with
    | nil => exact h1.elim
    | cons y b =>
      cases c with
      | nil => exact h2.elim
      | cons z c => trivial
  | cons x a ih =>
    cases b with
    | nil => exact h1.elim
    | cons y b =>
      cases c with
      | nil => exact h2.elim
      | cons z c =>
        simp only [strLt] at h1 h2 ⊢
        rcases h1 with h1 | ⟨rfl, h1⟩
        · rcases h2 with h2 | ⟨rfl, h2⟩
          · left; omega
          · left; exact h1
        · rcases h2 with h2 | ⟨rfl, h2⟩
          · left; exact h2
          · right; exact ⟨rfl, ih b c h1 h2⟩

theorem strLt_total (a b : Str) (h : ¬ strLt a b) (hne : a ≠ b) : strLt b a := by
  induction a generalizing b with
  | nil =>
    cases b with
    | nil => exact (hne rfl).elim
    | cons y b => exact (h trivial).elim
  | cons x a ih =>
    cases b with
    | nil => trivial
    | cons y b =>
      simp only [strLt, not_or, not_and] at h ⊢
      by_cases hxy : x = y
      · subst hxy
        right
        exact ⟨rfl, ih b (h.2 rfl) (fun e => hne (by rw [e]))⟩
      · left
        have : x.toNat ≠ y.toNat := fun e => hxy (Char.toNat_inj.1 e)
        omega

theorem mem_insertKey (k x : Str) (l : List Str) : x ∈ insertKey k l ↔ x = k ∨ x ∈ l := by
  induction l with
  | nil => simp [insertKey]
  | cons y l ih =>
    unfold insertKey
    split
    · simp
    · simp only [List.mem_cons, ih]
      tauto

theorem mem_sortKeys (x : Str) (l : List Str) : x ∈ sortKeys l ↔ x ∈ l := by
  induction l with
  | nil => simp [sortKeys]
  | cons y l ih => simp [sortKeys, mem_insertKey, ih]

theorem sorted_insertKey (k : Str) (l : List Str) (h : l.Pairwise strLt) (hk : k ∉ l) :
    (insertKey k l).Pairwise strLt := by
  induction l with
  | nil => simp [insertKey]
  | cons y l ih =>
    simp only [List.pairwise_cons] at h
    unfold insertKey
    by_cases hl : less k y = true
    · rw [if_pos hl]
      have hky := (less_iff k y).1 hl
      simp only [List.pairwise_cons, List.mem_cons]
      refine ⟨?_, h.1, h.2⟩
      rintro z (rfl | hz)
      · exact hky
      · exact strLt_trans _ _ _ hky (h.1 z hz)
    · rw [if_neg hl]
      have hky : ¬ strLt k y := fun e => hl ((less_iff k y).2 e)
      simp only [List.pairwise_cons, mem_insertKey]
      refine ⟨?_, ih h.2 (fun e => hk (by simp [e]))⟩
      rintro z (rfl | hz)
      · exact strLt_total _ _ hky (fun e => hk (by simp [e]))
      · exact h.1 z hz

theorem sorted_sortKeys (l : List Str) (h : l.Nodup) : (sortKeys l).Pairwise strLt := by
  induction l with
  | nil => simp [sortKeys]
  | cons y l ih =>
    simp only [List.nodup_cons] at h
    apply sorted_insertKey _ _ (ih h.2)
    rw [mem_sortKeys]
    exact h.1

/-! ## Text -/

theorem entries_json (m : List (Str × Nat)) (ks : List Str) (hne : ks ≠ [])
    (hp : ∀ k ∈ ks, PlainChars k) :
    JMembers (ks.map fun k => (k, Json.num (countOf m k))) (entries m ks) ∧
    JMembers (ks.map fun k => (k, Json.num (countOf m k))) ('\n' :: entries m ks) := by
  induction ks with
  | nil => exact (hne rfl).elim
  | cons k ks ih =>
    have hk : JText (.str k) (jsonString k) := JText.str (hp k (by simp))
    have hk1 := JText.space (a := [' ', ' ']) (b := [' ']) (by simp [IsSpace]) (by simp [IsSpace]) hk
    have hk2 := JText.space (a := ['\n', ' ', ' ']) (b := [' ']) (by simp [IsSpace])
      (by simp [IsSpace]) hk
    cases ks with
    | nil =>
      have hv := JText.space (a := [' ']) (b := ['\n']) (by simp [IsSpace]) (by simp [IsSpace])
        (JText.num (countOf m k))
      have r1 := JMembers.one hk1 hv
      have r2 := JMembers.one hk2 hv
      constructor
      · simpa [entries, jsonString] using r1
      · simpa [entries, jsonString] using r2
    | cons k2 ks =>
      have hv := JText.space (a := [' ']) (b := []) (by simp [IsSpace]) (by simp [IsSpace])
        (JText.num (countOf m k))
      obtain ⟨-, q⟩ := ih (by simp) (fun x hx => hp x (by simp [hx]))
      have r1 := JMembers.more hk1 hv q
      have r2 := JMembers.more hk2 hv q
      constructor
      · rw [entries]
        simpa [jsonString] using r1
      · rw [entries]
        simpa [jsonString] using r2

theorem object_text (m : List (Str × Nat)) (ks : List Str) (hp : ∀ k ∈ ks, PlainChars k) :
    JText (.obj (ks.map fun k => (k, Json.num (countOf m k))))
      (['{', '\n'] ++ entries m ks ++ ['}', '\n']) := by
  cases ks with
  | nil =>
    have := JText.space (a := []) (b := ['\n']) (by simp [IsSpace]) (by simp [IsSpace])
      (JText.objNil (w := ['\n']) (by simp [IsSpace]))
    simpa [entries] using this
  | cons k ks =>
    have q := (entries_json m (k :: ks) (by simp) hp).2
    have := JText.space (a := []) (b := ['\n']) (by simp [IsSpace]) (by simp [IsSpace])
      (JText.obj q)
    simpa using this

/-! ## Keys tell operations apart -/

/-- The number that digits stand for. -/
def valueOf (s : Str) : Nat := s.foldl (fun n c => n * 10 + (c.toNat - 48)) 0

theorem digit_value (n : Nat) : (digit n).toNat - 48 = n % 10 := by
  have h : ∀ k, k < 10 → (Char.ofNat (48 + k)).toNat - 48 = k := by decide
  exact h (n % 10) (Nat.mod_lt _ (by omega))

theorem natText_value (fuel n : Nat) (h : n < fuel) : valueOf (natText fuel n) = n := by
  induction fuel generalizing n with
  | zero => omega
  | succ fuel ih =>
    unfold natText
    by_cases hn : n < 10
    · rw [if_pos hn]
      have := digit_value n
      simp only [valueOf, List.foldl_cons, List.foldl_nil]
      omega
    · rw [if_neg hn]
      have h1 := ih (n / 10) (by omega)
      have := digit_value n
      unfold valueOf at h1 ⊢
      rw [List.foldl_append, h1]
      simp only [List.foldl_cons, List.foldl_nil]
      omega

theorem decimal_inj (a b : Nat) (h : decimal a = decimal b) : a = b := by
  have e : ∀ n : Nat, valueOf (decimal n) = n := by
    intro n
    unfold decimal
    rw [if_neg (by omega)]
    exact natText_value _ _ (by omega)
  rw [← e a, ← e b, h]

/-- The text of a kind after the dot. -/
def tagOf : Kind → Str
  | .none => ['n', 'o', 'n', 'e']
  | .rank n => decimal n ++ ['D']
  | .unranked => ['u', 'n', 'r', 'a', 'n', 'k', 'e', 'd']

def scalarTag : Str := ['s', 'c', 'a', 'l', 'a', 'r']

theorem kind_text (k : Kind) : k.text = '.' :: tagOf k := by
  cases k with
  | none => unfold Kind.text tagOf; decide +kernel
  | rank n =>
    have e1 : lit "." = ['.'] := by decide +kernel
    have e2 : lit "D" = ['D'] := by decide +kernel
    unfold Kind.text tagOf
    rw [e1, e2]
    rfl
  | unranked => unfold Kind.text tagOf; decide +kernel

theorem tag_dot (k : Kind) : '.' ∉ tagOf k := by
  cases k with
  | none => unfold tagOf; decide
  | unranked => unfold tagOf; decide
  | rank n =>
    unfold tagOf
    intro h
    rcases List.mem_append.1 h with h | h
    · have := Verif.Signature.decimal_chars _ _ h
      have e : ¬ ('.' ∈ lit "-0123456789") := by decide +kernel
      exact e this
    · revert h; decide

theorem append_D (a b : Str) (x : Char) (hx : x ≠ 'D') : a ++ ['D'] ≠ b ++ [x] := by
  intro h
  have := congrArg List.getLast? h
  simp at this
  exact hx this.symm

theorem tag_inj (j k : Kind) (h : tagOf j = tagOf k) : j = k := by
  cases j with
  | none =>
    cases k with
    | none => rfl
    | unranked => exact absurd h (by unfold tagOf; decide)
    | rank n => exact absurd h.symm (append_D _ ['n', 'o', 'n'] 'e' (by decide))
  | unranked =>
    cases k with
    | none => exact absurd h (by unfold tagOf; decide)
    | unranked => rfl
    | rank n =>
      exact absurd h.symm (append_D _ ['u', 'n', 'r', 'a', 'n', 'k', 'e'] 'd' (by decide))
  | rank m =>
    cases k with
    | none => exact absurd h (append_D _ ['n', 'o', 'n'] 'e' (by decide))
    | unranked => exact absurd h (append_D _ ['u', 'n', 'r', 'a', 'n', 'k', 'e'] 'd' (by decide))
    | rank n =>
      unfold tagOf at h
      rw [decimal_inj m n (List.append_cancel_right h)]

theorem tag_ne_scalar (k : Kind) : tagOf k ≠ scalarTag := by
  cases k with
  | none => unfold tagOf scalarTag; decide
  | unranked => unfold tagOf scalarTag; decide
  | rank n => exact append_D _ ['s', 'c', 'a', 'l', 'a'] 'r' (by decide)

/-- Texts that begin with a dot and have no other. -/
theorem dots_inj (xs ys : List Str) (hx : ∀ x ∈ xs, '.' ∉ x) (hy : ∀ y ∈ ys, '.' ∉ y)
    (h : (xs.map (List.cons '.')).flatten = (ys.map (List.cons '.')).flatten) : xs = ys := by
  induction xs generalizing ys with
  | nil =>
    cases ys with
    | nil => rfl
    | cons y ys => simp at h
  | cons x xs ih =>
    cases ys with
    | nil => simp at h
    | cons y ys =>
      simp only [List.map_cons, List.flatten_cons, List.cons_append, List.cons.injEq, true_and] at h
      have tw : ∀ (a : Str) (l : List Str), '.' ∉ a →
          (a ++ (l.map (List.cons '.')).flatten).takeWhile (fun c => c ≠ '.') = a := by
        intro a l ha
        rw [List.takeWhile_append_of_pos (by
          intro c hc
          simp only [ne_eq, decide_eq_true_eq]
          intro e
          exact ha (e ▸ hc))]
        cases l <;> simp
      have e1 := tw x xs (hx x (by simp))
      have e2 := tw y ys (hy y (by simp))
      rw [h, e2] at e1
      subst e1
      rw [ih ys (fun z hz => hx z (by simp [hz])) (fun z hz => hy z (by simp [hz]))
        (List.append_cancel_left h)]

/-- All the parts of a key after the name. -/
theorem key_parts (op : Op) : op.key = op.name ++
    (((op.operands.map fun t => tagOf t.kind) ++ (if op.isScalar then [scalarTag] else [])).map
      (List.cons '.')).flatten := by
  have e : lit ".scalar" = '.' :: scalarTag := by unfold scalarTag; decide +kernel
  unfold Op.key
  rw [List.map_append, List.flatten_append, List.append_assoc]
  congr 2
  · rw [List.map_map]
    congr 1
    apply List.map_congr_left
    intro t _
    exact kind_text t.kind
  · split
    · simp [e]
    · simp

end Verif.OpStats
