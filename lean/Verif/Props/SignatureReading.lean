import Verif.SigParse.Lemmas
/-!
# C128: reading signatures at run time
-/
namespace Verif.Props

open Verif.SigParse
open Verif.Signature (Str lit Ty inputText)

/-- C128 (partial: without sequences, and with at least one input). What the run time reads from the
signature of a compiled model are the element types, with their numbers in ONNX, and the dimensions of
the inputs, for every number of inputs, all dimensions of 64 bits and all names without quotes. -/
theorem C128_read_partial (xs : List (Ty × Str)) (hne : xs ≠ [])
    (hx : ∀ x ∈ xs, Readable x.1 ∧ '"' ∉ x.2) :
    ∃ es, parseSignature (inputText xs) = some es ∧ es.length = xs.length ∧
      ∀ p ∈ es.zip xs, Describes p.1 p.2.1 := by
  obtain ⟨s, fuel, -, rfl, hl, hp⟩ := parse_eq xs
  refine ⟨xs.map fun x => entryOf x.1, ?_, by simp, ?_⟩
  · rw [hp, entries_eq xs hx fuel [] [] hl]
    simp only [List.nil_append]
    rw [if_neg (by simpa using hne)]
  · clear hp hl hne
    induction xs with
    | nil => intro p hp; simp at hp
    | cons x xs ih =>
      intro p hp
      rcases List.mem_cons.1 hp with rfl | hp
      · have h := (hx x (by simp)).1
        show Describes (entryOf x.1) x.1
        cases ht : x.1 with
        | tensor elem dims =>
          rw [ht] at h
          exact ⟨⟨_, (codes.1 elem h.1).2.2, rfl⟩, rfl⟩
        | strings dims => exact ⟨rfl, rfl⟩
        | seq t =>
          rw [ht] at h
          exact h.elim
      · exact ih (fun z hz => hx z (by simp [hz])) p hp

/-- The hypotheses are met by three inputs, one of them of unknown size, and one without dimensions. -/
example : ∀ x ∈ [(Ty.tensor (lit "f32") [-1, 224, 3], lit "X, [dims]"), (Ty.tensor (lit "i1") [], lit ""),
    (Ty.strings [7], lit "last } name")], Readable x.1 ∧ '"' ∉ x.2 := by
  intro x hx
  simp only [List.mem_cons, List.not_mem_nil, or_false] at hx
  rcases hx with rfl | rfl | rfl
  · exact ⟨⟨by decide +kernel, by intro d hd; simp at hd; omega⟩, by decide +kernel⟩
  · exact ⟨⟨by decide +kernel, by intro d hd; simp at hd⟩, by decide +kernel⟩
  · exact ⟨by intro d hd; simp at hd; omega, by decide +kernel⟩

/-- C128 is false with sequences: the signature of a model with a sequence among its inputs is not
read. -/
theorem C128_sequence_false (pre post : List (Ty × Str)) (t : Ty) (n : Str)
    (hx : ∀ x ∈ pre, Readable x.1 ∧ '"' ∉ x.2) :
    parseSignature (inputText (pre ++ (.seq t, n) :: post)) = none := by
  obtain ⟨s, fuel, -, rfl, hl, hp⟩ := parse_eq (pre ++ (.seq t, n) :: post)
  rw [hp, entries_seq pre post t n hx fuel _ [] hl]

/-- C128 is false without inputs. -/
theorem C128_empty_false : parseSignature (inputText []) = none := by decide +kernel

end Verif.Props
