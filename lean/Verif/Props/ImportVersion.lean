import Verif.Builder.VersionModel
import Mathlib.Order.Defs.LinearOrder
import Mathlib.Data.List.Sort
import Mathlib.Tactic.Linarith

/-!
C82: the version of an operation that a model of some opset is imported with.
-/

namespace Verif.Props

open Verif.Builder

/-- The version of the operation in an opset: the newest that is not newer than the opset; the oldest when there is none. -/
def IsVersionIn (opsets : List ℕ) (opset v : ℕ) : Prop :=
  v ∈ opsets ∧ ((v ≤ opset ∧ ∀ w ∈ opsets, w ≤ opset → w ≤ v) ∨ ((∀ w ∈ opsets, opset < w) ∧ ∀ w ∈ opsets, v ≤ w))

/-- The version of the dialect for version `v`: the oldest that is not older; the newest when all are older. -/
def IsDialectVersion (supported : List ℕ) (v s : ℕ) : Prop :=
  s ∈ supported ∧ ((v ≤ s ∧ ∀ t ∈ supported, v ≤ t → s ≤ t) ∨ ((∀ t ∈ supported, t < v) ∧ ∀ t ∈ supported, t ≤ s))

theorem newestValid_spec (opsets : List ℕ) (h : opsets.Pairwise (· > ·)) (hne : opsets ≠ []) (opset : ℕ) :
    IsVersionIn opsets opset (newestValid opsets opset) := by
  unfold newestValid
  cases hf : opsets.find? (· ≤ opset) with
  | some v =>
    have hv := List.find?_some hf
    have hm := List.mem_of_find?_eq_some hf
    refine ⟨hm, Or.inl ⟨by simpa using hv, fun w hw hwo => ?_⟩⟩
    obtain ⟨_, as, bs, e, has⟩ := List.find?_eq_some_iff_append.1 hf
    subst e
    rw [List.pairwise_append, List.pairwise_cons] at h
    rcases List.mem_append.1 hw with h' | h'
    · have := has w h'
      simp at this
      omega
    · rcases List.mem_cons.1 h' with h' | h'
      · simp [h']
      · have := h.2.1.1 w h'
        simp only [Option.getD_some]
        omega
  | none =>
    have hall : ∀ w ∈ opsets, opset < w := fun w hw => by
      have := List.find?_eq_none.1 hf w hw
      simpa using this
    have hlast : opsets.getLastD 0 = opsets.getLast hne := by
      rw [List.getLastD_eq_getLast?, List.getLast?_eq_getLast_of_ne_nil hne]
      rfl
    rw [Option.getD_none, hlast]
    refine ⟨List.getLast_mem hne, Or.inr ⟨hall, fun w hw => ?_⟩⟩
    have hs := List.dropLast_append_getLast hne
    rw [← hs, List.pairwise_append] at h
    rw [← hs] at hw
    rcases List.mem_append.1 hw with h' | h'
    · exact le_of_lt (h.2.2 w h' _ (by simp))
    · simp only [List.mem_singleton] at h'
      exact le_of_eq h'.symm

theorem pickVersion_spec (supported : List ℕ) (h : supported.Pairwise (· > ·)) (hne : supported ≠ []) (v : ℕ) :
    IsDialectVersion supported v ((pickVersion supported v).getD (supported.headD 0)) := by
  obtain ⟨a, l, rfl⟩ := List.exists_cons_of_ne_nil hne
  rw [List.pairwise_cons] at h
  have hp : pickVersion (a :: l) v = if a ≤ v then none else (a :: l).reverse.find? fun s => v ≤ s ∧ s ≠ a := rfl
  rw [hp, List.headD_cons]
  clear hp
  by_cases hle : a ≤ v
  · rw [if_pos hle, Option.getD_none]
    refine ⟨by simp, ?_⟩
    rcases Nat.lt_or_eq_of_le hle with h' | h'
    · right
      refine ⟨fun t ht => ?_, fun t ht => ?_⟩
      · rcases List.mem_cons.1 ht with e | e
        · omega
        · have := h.1 t e; omega
      · rcases List.mem_cons.1 ht with e | e
        · omega
        · have := h.1 t e; omega
    · left
      refine ⟨by omega, fun t ht hvt => by omega⟩
  · rw [if_neg hle]
    cases hf : (a :: l).reverse.find? fun s => v ≤ s ∧ s ≠ a with
    | none =>
      rw [Option.getD_none]
      refine ⟨by simp, Or.inl ⟨by omega, fun t ht hvt => ?_⟩⟩
      have := List.find?_eq_none.1 hf t (by rw [List.mem_reverse]; exact ht)
      simp at this
      exact le_of_eq (this hvt).symm
    | some s =>
      rw [Option.getD_some]
      have hm := List.mem_of_find?_eq_some hf
      rw [List.mem_reverse] at hm
      have hp := List.find?_some hf
      simp only [decide_eq_true_eq] at hp
      refine ⟨hm, Or.inl ⟨hp.1, fun t ht hvt => ?_⟩⟩
      obtain ⟨_, as, bs, e, has⟩ := List.find?_eq_some_iff_append.1 hf
      have hr : ((a :: l).reverse).Pairwise (· < ·) := by
        rw [List.pairwise_reverse]
        exact List.pairwise_cons.2 h
      rw [e, List.pairwise_append, List.pairwise_cons] at hr
      have ht' : t ∈ as ++ s :: bs := by rw [← e, List.mem_reverse]; exact ht
      rcases List.mem_append.1 ht' with h' | h'
      · have h2 := has t h'
        simp at h2
        have hta : t = a := by omega
        subst hta
        have := h.1 s
        rcases List.mem_cons.1 hm with h3 | h3
        · exact absurd h3 hp.2
        · exact le_of_lt (this h3)
      · rcases List.mem_cons.1 h' with h' | h'
        · omega
        · exact le_of_lt (hr.2.1.1 t h')

/-- For every operation of the table, a model is imported with the oldest version of the dialect that is not older than the version the operation has
in the opset of the model; with the newest when all are older. -/
theorem C82_version (entry : OpVersions) (he : entry ∈ opTable) (hs : entry.supported ≠ []) (imports : String → Option ℕ) (domain : String)
    (opset : ℕ) (hd : imports domain = some opset) :
    ∃ v, IsVersionIn entry.opsets opset v ∧
      IsDialectVersion entry.supported v ((importVersion imports domain entry).getD (entry.supported.headD 0)) := by
  have hall : ∀ e ∈ opTable, e.supported.Pairwise (· > ·) ∧ e.opsets.Pairwise (· > ·) ∧ e.opsets ≠ [] := by decide +kernel
  obtain ⟨h1, h2, h3⟩ := hall entry he
  refine ⟨newestValid entry.opsets opset, newestValid_spec _ h2 h3 opset, ?_⟩
  unfold importVersion
  rw [hd]
  simp only [hs, h3, or_self, if_false]
  exact pickVersion_spec _ h1 hs _

/-- The version chosen always has a handler. -/
theorem C82_handler (entry : OpVersions) (he : entry ∈ opTable) (hs : entry.supported ≠ []) (imports : String → Option ℕ) (domain : String) :
    importVersion imports domain entry ∈ entry.handlers := by
  have hall : ∀ e ∈ opTable, e.supported ≠ [] → none ∈ e.handlers ∧ e.opsets.Pairwise (· > ·) ∧ e.opsets ≠ [] ∧
      ∀ v ∈ e.opsets, pickVersion e.supported v ∈ e.handlers := by decide +kernel
  obtain ⟨h1, h2, h3, h4⟩ := hall entry he hs
  unfold importVersion
  split
  · exact h1
  · rename_i opset _
    split
    · exact h1
    · exact h4 _ (newestValid_spec _ h2 h3 opset).1

/-- Every version of the dialect is chosen for some opset. -/
theorem C82_onto : ∀ entry ∈ opTable, entry.supported ≠ [] → ∀ h ∈ entry.handlers, ∃ opset, importVersion (fun _ => some opset) "" entry = h := by
  have hall : ∀ e ∈ opTable, e.supported ≠ [] → ∀ h ∈ e.handlers, ∃ opset ∈ List.range 30, importVersion (fun _ => some opset) "" e = h := by
    decide +kernel
  intro e he hs h hh
  obtain ⟨o, _, ho⟩ := hall e he hs h hh
  exact ⟨o, ho⟩

/-- Split has the versions 18, 13 and 11 in the dialect. -/
def splitVersions : OpVersions := ⟨"Split", [18, 13, 11], [18, 13, 11, 2, 1], [none, some 13, some 11]⟩

/-- The hypotheses hold of it. -/
example : splitVersions ∈ opTable ∧ (List.range 27).map (fun o => importVersion (fun _ => some o) "" splitVersions) =
    List.replicate 13 (some 11) ++ List.replicate 5 (some 13) ++ List.replicate 9 none := by
  refine ⟨?_, by decide +kernel⟩
  have : ∃ e ∈ opTable, e.name = splitVersions.name ∧ e.supported = splitVersions.supported ∧ e.opsets = splitVersions.opsets ∧
    e.handlers = splitVersions.handlers := by decide +kernel
  obtain ⟨⟨a, b, c, d⟩, he, h1, h2, h3, h4⟩ := this
  simp only at h1 h2 h3 h4
  subst h1 h2 h3 h4
  exact he

/-- The opset may be imported under the name `ai.onnx` of the default domain, which the nodes leave empty: then the newest version is chosen
whatever the opset. -/
theorem C82_domain_false : ∃ (imports : String → Option ℕ), imports "ai.onnx" = some 11 ∧
    importVersion imports "" splitVersions = none ∧ importVersion (fun _ => some 11) "" splitVersions = some 11 :=
  ⟨fun d => if d = "ai.onnx" then some 11 else none, rfl, by decide +kernel, by decide +kernel⟩

/-- The versions of LogSoftmax in opsets 11 and 13 have another default axis and another meaning for it; the dialect has only one, and a model of
opset 11 gets the one of opset 13. -/
theorem C82_logsoftmax_false : ∃ e ∈ opTable, e.name = "LogSoftmax" ∧ newestValid e.opsets 11 = 11 ∧ e.supported = [13] ∧
    importVersion (fun _ => some 11) "" e = none := by decide +kernel

end Verif.Props
