import Verif.OpStats.Lemmas
/-!
# C126: statistics of operations
-/
namespace Verif.Props

open Verif.OpStats
open Verif.Signature (Str lit Json JText PlainChars)

/-- C126 (partial: for operations without the types of the two theorems below). The text that is stored
in the module is a JSON object whose keys are in strictly increasing order, and that has, for every key,
the exact number of operations with that key, and no member for the others. -/
theorem C126_stats_partial (ops : List Op) (hf : ∀ op ∈ ops, op.Counted → op.Fine)
    (hp : ∀ op ∈ ops, PlainChars op.key) :
    ∃ text members, opStats ops = some text ∧ JText (.obj members) text ∧
      (members.map Prod.fst).Pairwise strLt ∧
      ∀ k v, (k, v) ∈ members ↔ v = Json.num (howMany ops k) ∧ 0 < howMany ops k := by
  obtain ⟨m, h1, h2, h3, h4⟩ := countOps_eq ops [] (by simp) hf
  have h3' : ∀ k, countOf m k = howMany ops k := by
    intro k
    rw [h3]
    simp [countOf]
  have h4' : ∀ k, k ∈ sortKeys (m.map Prod.fst) ↔ 0 < howMany ops k := by
    intro k
    rw [mem_sortKeys, h4]
    simp
  refine ⟨_, (sortKeys (m.map Prod.fst)).map fun k => (k, Json.num (countOf m k)), ?_,
    object_text m _ ?_, ?_, ?_⟩
  · unfold opStats
    rw [h1]
  · intro k hk
    have hpos := (h4' k).1 hk
    unfold howMany at hpos
    obtain ⟨op, hop⟩ := List.exists_mem_of_length_pos hpos
    rw [List.mem_filter] at hop
    have he := of_decide_eq_true hop.2
    rw [← he.2]
    exact hp op hop.1
  · rw [List.map_map]
    have : (Prod.fst ∘ fun k => (k, Json.num (countOf m k))) = (id : Str → Str) := rfl
    rw [this, List.map_id]
    exact sorted_sortKeys _ h2
  · intro k v
    simp only [List.mem_map, Prod.mk.injEq]
    constructor
    · rintro ⟨k', hk', rfl, rfl⟩
      exact ⟨by rw [h3'], (h4' k').1 hk'⟩
    · rintro ⟨rfl, hpos⟩
      exact ⟨k, (h4' k).2 hpos, rfl, by rw [h3']⟩

/-- Keys tell operations of the same name apart by the kinds of their operands, and scalar operations
from others. -/
theorem C126_keys (p q : Op) (hn : p.name = q.name) (h : p.key = q.key) :
    p.operands.map VTy.kind = q.operands.map VTy.kind ∧ p.isScalar = q.isScalar := by
  rw [key_parts, key_parts, hn] at h
  have h2 := List.append_cancel_left h
  have hd : ∀ o : Op, ∀ x ∈ (o.operands.map fun t => tagOf t.kind) ++
      (if o.isScalar then [scalarTag] else []), '.' ∉ x := by
    intro o x hx
    rcases List.mem_append.1 hx with hx | hx
    · obtain ⟨t, -, rfl⟩ := List.mem_map.1 hx
      exact tag_dot _
    · split at hx
      · rw [List.mem_singleton.1 hx]
        unfold scalarTag
        decide
      · simp at hx
  have h3 := dots_inj _ _ (hd p) (hd q) h2
  have hlast : ∀ (a b : List VTy), (a.map fun t => tagOf t.kind) ++ [scalarTag] ≠
      b.map fun t => tagOf t.kind := by
    intro a b e
    have : scalarTag ∈ b.map fun t => tagOf t.kind := by rw [← e]; simp
    obtain ⟨t, -, ht⟩ := List.mem_map.1 this
    exact tag_ne_scalar _ ht
  have hmap : ∀ (a b : List VTy), (a.map fun t => tagOf t.kind) = (b.map fun t => tagOf t.kind) →
      a.map VTy.kind = b.map VTy.kind := by
    intro a
    induction a with
    | nil =>
      intro b e
      cases b with
      | nil => rfl
      | cons t b => simp at e
    | cons s a ih =>
      intro b e
      cases b with
      | nil => simp at e
      | cons t b =>
        simp only [List.map_cons, List.cons.injEq] at e ⊢
        exact ⟨tag_inj _ _ e.1, ih b e.2⟩
  cases hp : p.isScalar with
  | true =>
    cases hq : q.isScalar with
    | true =>
      rw [hp, hq] at h3
      simp only [if_true] at h3
      exact ⟨hmap _ _ (List.append_cancel_right h3), rfl⟩
    | false =>
      rw [hp, hq] at h3
      simp only [if_true, Bool.false_eq_true, if_false, List.append_nil] at h3
      exact (hlast _ _ h3).elim
  | false =>
    cases hq : q.isScalar with
    | true =>
      rw [hp, hq] at h3
      simp only [if_true, Bool.false_eq_true, if_false, List.append_nil] at h3
      exact (hlast _ _ h3.symm).elim
    | false =>
      rw [hp, hq] at h3
      simp only [Bool.false_eq_true, if_false, List.append_nil] at h3
      exact ⟨hmap _ _ h3, rfl⟩

/-- The operations of a small model. -/
def statsExample : List Op :=
  [⟨lit "func.func", [], []⟩, ⟨lit "onnx.Relu", [.tensor [-1, 3]], [.tensor [-1, 3]]⟩,
   ⟨lit "onnx.Relu", [.tensor [2, 3]], [.tensor [2, 3]]⟩,
   ⟨lit "onnx.Add", [.tensor [1], .tensor []], [.tensor [1]]⟩,
   ⟨lit "onnx.SequenceLength", [.seq false], [.tensor []]⟩, ⟨lit "onnx.NoValue", [], [.none]⟩]

/-- The hypotheses are met by these operations; two have the same key. -/
example : (∀ op ∈ statsExample, op.Counted → op.Fine) ∧ (∀ op ∈ statsExample, PlainChars op.key) ∧
    howMany statsExample (lit "onnx.Relu.2D") = 2 ∧
    howMany statsExample (lit "onnx.Add.1D.0D.scalar") = 1 := by
  refine ⟨?_, ?_, by decide +kernel, by decide +kernel⟩
  · intro op hop _
    simp only [statsExample, List.mem_cons, List.not_mem_nil, or_false] at hop
    rcases hop with rfl | rfl | rfl | rfl | rfl | rfl <;> constructor <;> simp
  · unfold PlainChars
    decide +kernel

/-- C126 is false with an operand that is a tensor without rank, although the source says how it is
written: the rank is asked for, and an assertion fails. -/
theorem C126_unranked_false (ops : List Op) (op : Op) (h : op ∈ ops) (hc : op.Counted)
    (hu : VTy.unranked ∈ op.operands) : opStats ops = none := by
  have hk : opKey op = none := by
    have : ∀ (ts : List VTy) (s : Str), VTy.unranked ∈ ts → appendOperands s ts = none := by
      intro ts
      induction ts with
      | nil => intro s h; simp at h
      | cons t ts ih =>
        intro s h
        rcases List.mem_cons.1 h with h | h
        · subst h
          rfl
        · unfold appendOperands
          split
          · rfl
          · exact ih _ h
    unfold opKey
    rw [this _ _ hu]
  have : ∀ (ops : List Op) (m : List (Str × Nat)), op ∈ ops → countOps ops m = none := by
    intro ops
    induction ops with
    | nil => intro m h; simp at h
    | cons o ops ih =>
      intro m h
      unfold countOps
      rcases List.mem_cons.1 h with h | h
      · subst h
        have hs : ¬ skipped op = true := fun e => (skipped_iff op).1 e hc
        rw [if_neg hs, hk]
      · split
        · exact ih m h
        · split
          · rfl
          · exact ih _ h
  unfold opStats
  rw [this ops [] h]

/-- C126 is false with an operation whose first result is a sequence of tensors with a rank, as
`SequenceInsert` has: it is taken for a tensor, and a cast fails. -/
theorem C126_sequence_false (ops : List Op) (op : Op) (h : op ∈ ops) (hc : op.Counted)
    (hu : op.results.head? = some (.seq true)) : opStats ops = none := by
  have hr : allOf op.results = none := by
    cases hres : op.results with
    | nil => rw [hres] at hu; simp at hu
    | cons t ts =>
      rw [hres] at hu
      simp only [List.head?_cons, Option.some.injEq] at hu
      subst hu
      rfl
  have hk : opKey op = none := by
    unfold opKey
    rw [hr]
    split
    · rfl
    · split <;> rfl
  have : ∀ (ops : List Op) (m : List (Str × Nat)), op ∈ ops → countOps ops m = none := by
    intro ops
    induction ops with
    | nil => intro m h; simp at h
    | cons o ops ih =>
      intro m h
      unfold countOps
      rcases List.mem_cons.1 h with h | h
      · subst h
        have hs : ¬ skipped op = true := fun e => (skipped_iff op).1 e hc
        rw [if_neg hs, hk]
      · split
        · exact ih m h
        · split
          · rfl
          · exact ih _ h
  unfold opStats
  rw [this ops [] h]

/-- The cases are met by these operations. -/
example : opStats [⟨lit "onnx.Relu", [.unranked], [.unranked]⟩] = none ∧
    opStats [⟨lit "onnx.SequenceInsert", [.seq false, .tensor [2], .none], [.seq true]⟩] = none :=
  ⟨C126_unranked_false _ _ List.mem_cons_self (by decide +kernel) List.mem_cons_self,
   C126_sequence_false _ _ List.mem_cons_self (by decide +kernel) rfl⟩

end Verif.Props
