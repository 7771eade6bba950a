import Verif.Runtime.ConstModel

/-! # Lemmas on external constant files -/

namespace Verif.Runtime.Const

/-- The first `p` bytes of the file are in the buffer, the rest of the buffer is untouched. -/
structure Good (file : List Byte) (sched : Nat → Option Nat) (mem0 : Nat → Byte) (p : Nat)
    (s : Rd) : Prop where
  pos : s.pos = p
  le : p ≤ file.length
  bytes : ∀ j, j < p → file[j]? = some (s.mem j)
  rest : ∀ j, p ≤ j → s.mem j = mem0 j
  ok : ∀ i, i < s.calls → (sched i).isSome
  calls : s.calls ≤ p

def Post (file : List Byte) (sched : Nat → Option Nat) (mem0 : Nat → Byte) (p : Nat) :
    Outcome → Prop
  | .ok s => Good file sched mem0 p s
  | .failed c => sched c = none ∨ file.length < p

theorem readChunk_post {file : List Byte} {sched : Nat → Option Nat} {mem0 : Nat → Byte}
    {offset chunk : Nat} : ∀ (m total : Nat) (s : Rd), chunk - total = m → total ≤ chunk →
    Good file sched mem0 (offset + total) s →
    Post file sched mem0 (offset + chunk) (readChunk file sched offset chunk total s) := by
  intro m
  induction m using Nat.strongRecOn with
  | ind m ih =>
    intro total s hm hle g
    rw [readChunk]
    split
    · rename_i hlt
      split
      · rename_i hr
        left
        simpa [readCall] using hr
      · rename_i hr
        right
        simp only [readCall, Option.map_eq_some_iff] at hr
        obtain ⟨w, _, hw⟩ := hr
        have := g.pos
        omega
      · rename_i n hr
        simp only [readCall, Option.map_eq_some_iff] at hr
        obtain ⟨w, hsw, hw⟩ := hr
        have hp := g.pos
        refine ih (chunk - (total + (n + 1))) (by omega) _ _ rfl (by omega) ?_
        constructor
        · show s.pos + (n + 1) = _; omega
        · omega
        · intro j hj
          simp only [storeRead]
          split
          · rename_i hc
            have he : s.pos + (j - (offset + total)) = j := by omega
            rw [he]
            have hjl : j < file.length := by omega
            simp [List.getD_eq_getElem?_getD, hjl]
          · exact g.bytes j (by omega)
        · intro j hj
          simp only [storeRead]
          rw [if_neg (by omega)]
          exact g.rest j (by omega)
        · intro i hi
          by_cases hic : i = s.calls
          · subst hic; rw [hsw]; rfl
          · exact g.ok i (by have : i < s.calls + 1 := hi; omega)
        · have := g.calls
          show s.calls + 1 ≤ _
          omega
    · have : total = chunk := by omega
      subst this
      exact g

theorem readAll_post {file : List Byte} {sched : Nat → Option Nat} {mem0 : Nat → Byte}
    {chunkSize : Nat} (hc : 0 < chunkSize) : ∀ (remaining offset : Nat) (s : Rd),
    Good file sched mem0 offset s →
    Post file sched mem0 (offset + remaining) (readAll file sched chunkSize remaining offset s) := by
  intro remaining
  induction remaining using Nat.strongRecOn with
  | ind remaining ih =>
    intro offset s g
    rw [readAll]
    split
    · rename_i hr
      simp only
      generalize hch : (if remaining > chunkSize then chunkSize else remaining) = chunk
      have hle : chunk ≤ remaining ∧ 0 < chunk := by
        rw [← hch]; split <;> omega
      have hp := readChunk_post (offset := offset) (chunk := chunk) _ 0 s rfl (by omega) g
      split
      · rename_i c he
        rw [he] at hp
        rcases hp with h | h
        · exact Or.inl h
        · right; omega
      · rename_i s' he
        rw [he] at hp
        have := ih (remaining - chunk) (by omega) (offset + chunk) s' hp
        have e : offset + chunk + (remaining - chunk) = offset + remaining := by omega
        rw [e] at this
        exact this
    · have : remaining = 0 := by omega
      subst this
      exact g

theorem pad_aligned (total : Nat) (a : Int) (ha : 0 < a) :
    (total + padSize total a) % a.toNat = 0 := by
  unfold padSize
  split
  · have h : 0 < a.toNat := by omega
    have h1 : total < (total / a.toNat + 1) * a.toNat := by
      rw [Nat.add_mul, Nat.one_mul, Nat.mul_comm]
      exact Nat.lt_mul_div_succ total h
    rw [Nat.add_sub_cancel' (by omega)]
    simp
  · rename_i h
    simp only [not_and, not_not] at h
    simpa using h ha

theorem pack_prefix : ∀ (cs : List Cst) (file : List Byte), file <+: (pack cs file).1
  | [], file => List.prefix_refl _
  | c :: cs, file => by
    simp only [pack]
    refine List.IsPrefix.trans ?_ (pack_prefix cs _)
    exact (List.prefix_append _ _).trans (List.prefix_append _ _)

theorem pack_spec : ∀ (cs : List Cst) (file : List Byte),
    (pack cs file).2.length = cs.length ∧
    ∀ (i : Nat) c o, cs[i]? = some c → (pack cs file).2[i]? = some o →
      file.length ≤ o ∧ o + c.data.length ≤ (pack cs file).1.length ∧
      ((pack cs file).1.drop o).take c.data.length = c.data ∧
      (0 < c.align → o % c.align.toNat = 0)
  | [], file => by simp [pack]
  | c :: cs, file => by
    set file1 := file ++ List.replicate (padSize file.length c.align) 0 with h1
    obtain ⟨ih1, ih2⟩ := pack_spec cs (file1 ++ c.data)
    have hp : (pack (c :: cs) file) = ((pack cs (file1 ++ c.data)).1,
      file1.length :: (pack cs (file1 ++ c.data)).2) := rfl
    rw [hp]
    refine ⟨by simp [ih1], ?_⟩
    intro i d o hd ho
    cases i with
    | zero =>
      simp only [List.getElem?_cons_zero, Option.some.injEq] at hd ho
      subst hd ho
      obtain ⟨t, ht⟩ := pack_prefix cs (file1 ++ c.data)
      refine ⟨by simp [h1], ?_, ?_, ?_⟩
      · rw [← ht]; simp
      · simp only
        rw [← ht, List.append_assoc, List.drop_left, List.take_left]
      · intro ha
        rw [h1, List.length_append, List.length_replicate]
        exact pad_aligned _ _ ha
    | succ i =>
      simp only [List.getElem?_cons_succ] at hd ho
      obtain ⟨a1, a2, a3, a4⟩ := ih2 i d o hd ho
      refine ⟨?_, a2, a3, a4⟩
      simp [h1] at a1; omega

end Verif.Runtime.Const
