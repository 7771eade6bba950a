import Verif.Signature.Json
/-!
# C110: a compiled model describes its inputs and outputs in JSON
-/
namespace Verif.Props
open Verif.Signature

/-- **C110 (partial).** For every model whose types have a description and whose names are plain,
every tag, and every name the caller asks for: `omInputSignature` returns NULL if there is no such
entry point, and otherwise a C string that describes the inputs of the entry point.  The same for
`omOutputSignature` and the outputs.
Missing: other names, and other types of elements; for these the claim is false, see below. -/
theorem C110_signature_partial (pfx : Str) (hp : nul ∉ pfx) (es : List Entry)
    (hes : ∀ e ∈ es, e.Plain) (name : Str) (hname : nul ∉ name) :
    match (entryNames pfx es).find? (fun p => p.1 = name) with
    | none => omInputSignature pfx es name = .null ∧ omOutputSignature pfx es name = .null
    | some p => ∃ a b, omInputSignature pfx es name = .ptr a ∧
        cString a = some (inputText p.2.inputs) ∧
        omOutputSignature pfx es name = .ptr b ∧ cString b = some (outputText p.2.outputs) := by
  have hn := entryNames_nul pfx hp es hes
  have h1 := lookup_eq Globals.inSig (fun e => inputText e.inputs ++ [nul]) name hname
    (entryNames pfx es) (fun p h => (hn p h).1)
    (fun p => record p.1 (getSignature p.2.inputs p.2.outputs))
    (fun p h => by rw [record_eq p.1 p.2 (hn p h).2]; exact ⟨rfl, rfl⟩)
  have h2 := lookup_eq Globals.outSig (fun e => outputText e.outputs ++ [nul]) name hname
    (entryNames pfx es) (fun p h => (hn p h).1)
    (fun p => record p.1 (getSignature p.2.inputs p.2.outputs))
    (fun p h => by rw [record_eq p.1 p.2 (hn p h).2]; exact ⟨rfl, rfl⟩)
  rw [← recordAll_eq] at h1 h2
  unfold omInputSignature omOutputSignature
  rw [h1, h2]
  cases hf : (entryNames pfx es).find? (fun p => p.1 = name) with
  | none => exact ⟨rfl, rfl⟩
  | some p =>
    obtain ⟨_, _, hi, ho⟩ := hn p (List.mem_of_find?_eq_some hf)
    exact ⟨_, _, rfl, cString_eq _ (inputText_chars nul (.inr rfl) _ hi), rfl,
      cString_eq _ (outputText_chars nul (.inr rfl) _ ho)⟩

/-- **C110.** The descriptions are JSON texts of arrays with one object for each input (output) in
order, with its type, dimensions and name, when the names have no characters that JSON escapes. -/
theorem C110_json (xs : List (Ty × Str)) (hx : ∀ x ∈ xs, x.1.Known ∧ PlainChars x.2) :
    JText (listJson xs) (inputText xs) ∧ JText (listJson xs) (outputText xs) :=
  ⟨input_json xs hx, output_json xs hx⟩

/-- A model with two inputs and an output, one of them a sequence. -/
def toyEntry : Entry where
  func := lit "main_graph"
  inputs := [(.tensor (lit "f32") [-1, 10], lit "X"), (.seq (.strings []), lit "last state")]
  outputs := [(.tensor (lit "i64") [3], lit "Y")]

/-- The hypotheses hold for it. -/
example : ∀ e ∈ [toyEntry], e.Plain := by
  have k : ∀ n ∈ [lit "X", lit "last state", lit "Y"], PlainName n := by
    unfold PlainName; decide +kernel
  intro e he
  rw [List.mem_singleton.mp he]
  refine ⟨by decide +kernel, ?_, ?_⟩
  · intro x hx
    simp only [toyEntry, List.mem_cons, List.not_mem_nil, or_false] at hx
    rcases hx with rfl | rfl
    · exact ⟨(by decide +kernel : lit "f32" ∈ elemTypes), k _ (by simp)⟩
    · exact ⟨trivial, k _ (by simp)⟩
  · intro x hx
    simp only [toyEntry, List.mem_cons, List.not_mem_nil, or_false] at hx
    subst hx
    exact ⟨(by decide +kernel : lit "i64" ∈ elemTypes), k _ (by simp)⟩

example : omInputSignature (lit "_m") [toyEntry] (lit "run_main_graph_m") = .ptr
    (lit "[    { \"type\" : \"f32\" , \"dims\" : [-1 , 10] , \"name\" : \"X\" }\n ,    {\"seq\" :    { \"type\" : \"string\" , \"dims\" : [] , \"name\" : \"last state\" }\n }\n\n]"
      ++ [nul]) := by
  decide +kernel

example : omOutputSignature (lit "_m") [toyEntry] (lit "run_main_graph_n") = .null := by
  decide +kernel

/-! ## Other names and types -/

/-- A model with one input, of one number. -/
def oneInput (elem name : String) : Entry where
  func := lit "main_graph"
  inputs := [(.tensor (lit elem) [], lit name)]
  outputs := []

/-- A name with an at sign ends the description of the inputs: what the caller gets is not a C
string. -/
theorem C110_at_false : ∃ a,
    omInputSignature [] [oneInput "f32" "a@b"] (lit "run_main_graph") = .ptr a ∧
      cString a = none :=
  ⟨lit "[    { \"type\" : \"f32\" , \"dims\" : [] , \"name\" : \"a", by decide +kernel,
    by decide +kernel⟩

/-- A name in which an element type is a word is changed. -/
theorem C110_name_false : ∃ a,
    omInputSignature [] [oneInput "f32" "as f32 value"] (lit "run_main_graph") = .ptr a ∧
      cString a = some (lit
        "[    { \"type\" : \"f32\" , \"dims\" : [] , \"name\" : \"as \"f32\" value\" }\n\n]") :=
  ⟨lit
    "[    { \"type\" : \"f32\" , \"dims\" : [] , \"name\" : \"as \"f32\" value\" }\n\n]" ++ [nul],
    by decide +kernel, by decide +kernel⟩

/-- Other element types are not quoted: the description is not JSON. -/
theorem C110_type_false : ∃ a,
    omInputSignature [] [oneInput "bf16" "x"] (lit "run_main_graph") = .ptr a ∧
      cString a = some (lit
        "[    { \"type\" : bf16 , \"dims\" : [] , \"name\" : \"x\" }\n\n]") :=
  ⟨lit
    "[    { \"type\" : bf16 , \"dims\" : [] , \"name\" : \"x\" }\n\n]" ++ [nul],
    by decide +kernel, by decide +kernel⟩

/-- Quotation marks in names are not escaped. -/
theorem C110_escape_false : ∃ a,
    omInputSignature [] [oneInput "f32" "a\"b"] (lit "run_main_graph") = .ptr a ∧
      cString a = some (lit
        "[    { \"type\" : \"f32\" , \"dims\" : [] , \"name\" : \"a\"b\" }\n\n]") :=
  ⟨lit
    "[    { \"type\" : \"f32\" , \"dims\" : [] , \"name\" : \"a\"b\" }\n\n]" ++ [nul],
    by decide +kernel, by decide +kernel⟩

end Verif.Props
