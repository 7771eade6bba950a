import Verif.Builder.ShapeOptLemmas

/-!
C83: the options for the shapes of the inputs and for the names of their dimensions.
-/

namespace Verif.Props

open Verif.Builder

/-- `--shapeInformation`: every input gets, dimension by dimension, what the option says for it, and keeps the rest. -/
theorem C83_shape (es : List ShapeEntry) (h : ∀ e ∈ es, e.Ok) :
    ∃ m, parseShapeInformation (shapeText es) = some m ∧
      ∀ (k : ℕ) (dims : List (Option ℕ)) (d : ℕ), (reshape none m k dims)[d]? =
        (dims[d]?).map fun o => ((chosenShape es k).bind fun user => user[d]?).getD o := by
  obtain ⟨m, hm, hl⟩ := parseShape_text es h
  refine ⟨m, hm, fun k dims d => ?_⟩
  unfold reshape
  dsimp only
  rw [reshapeInfo_chosen es m hl k dims]
  cases chosenShape es k with
  | some user => exact getElem?_customShape user dims d
  | none => simp

/-- Rank is kept by every option. -/
theorem C83_rank (forced : Option (List (ℤ × List ℤ))) (info : List (ℤ × List (Option ℕ))) (k : ℕ) (dims : List (Option ℕ)) :
    (reshape forced info k dims).length = dims.length := by
  unfold reshape reshapeInfo
  split <;> (try split) <;> (try split) <;> (try split) <;> (try split) <;> simp [customShape, forceShape]

/-- `IMPORTER_FORCE_DYNAMIC`: the dimensions it names become dynamic, all others of the inputs it names keep what the model says, and other inputs are
left to `--shapeInformation`. -/
theorem C83_force (es : List ForceEntry) (hne : es ≠ []) (h : ∀ e ∈ es, e.Ok) :
    ∃ m, parseForceDynamic (forceText es) = some m ∧
      ∀ (info : List (ℤ × List (Option ℕ))) (k : ℕ) (dims : List (Option ℕ)),
        match chosenForce es k with
        | none => reshape (some m) info k dims = reshape none info k dims
        | some e => ∀ d : ℕ, (e.Forces d → (reshape (some m) info k dims)[d]? = (dims[d]?).map fun _ => none) ∧
            (¬ e.Forces d → (reshape (some m) info k dims)[d]? = dims[d]?) := by
  obtain ⟨m, hm, hl⟩ := parseForce_text es hne h
  refine ⟨m, hm, fun info k dims => ?_⟩
  have key : ∀ e : ForceEntry, ∀ d : ℕ, (e.Forces d → (forceShape e.vals dims)[d]? = (dims[d]?).map fun _ => none) ∧
      (¬ e.Forces d → (forceShape e.vals dims)[d]? = dims[d]?) := by
    intro e d
    rw [getElem?_forceShape]
    constructor
    · intro hf
      rw [← vals_forces] at hf
      simp only [hf, if_true]
    · intro hf
      rw [← vals_forces] at hf
      simp only [hf, if_false, Option.map_id']
  have h1 := hl none
  have h2 := hl (some k)
  simp only [indexVal] at h1 h2
  unfold chosenForce reshape
  dsimp only
  rw [h1, h2]
  cases es.find? fun e => e.input = none with
  | some e => exact key e
  | none =>
    cases es.find? fun e => e.input = some k with
    | some e => exact key e
    | none => rfl

/-- The names of the dimensions of an input, as the analysis of dimensions reads them from the attribute: those of `--dimParams` if it names the
input or has names for all inputs, else those of the model. -/
theorem C83_names (es : List ParamEntry) (h : ∀ e ∈ es, e.Ok) :
    ∃ m, parseDimParams (paramText es) = some m ∧
      ∀ (k : ℕ) (dims : List ProtoDim), dims.length ≤ 2147483648 → (∀ s, ProtoDim.param s ∈ dims → ',' ∉ s) →
        ∃ names, getONNXDimParams (inputDimParams m k dims) = some names ∧ ∀ d : ℕ, lookupKey names d = chosenName es k dims d := by
  obtain ⟨m, hm, hl, ha⟩ := parseParams_text es h
  refine ⟨m, hm, fun k dims hlen hc => ?_⟩
  unfold inputDimParams chosenName
  rw [hl k, ha]
  have hmem : ∀ (p : ParamEntry → Bool) e, es.reverse.find? p = some e → e.Ok := fun p e he =>
    h e (List.mem_reverse.1 (List.mem_of_find?_eq_some he))
  cases hf : es.reverse.find? fun e => e.input = some k with
  | some e => exact kept_read e (hmem _ e hf)
  | none =>
    simp only [Option.map_none]
    cases hg : es.reverse.find? fun e => e.input = none with
    | none => exact modelNames_read dims hlen hc
    | some e =>
      simp only [Option.map_some, Option.getD_some]
      by_cases hn : e.names = []
      · have : e.kept = [] := (joinNames_nil e.names).2 hn
        simp only [this, hn, ne_eq, not_true_eq_false, if_false, if_true]
        exact modelNames_read dims hlen hc
      · have : e.kept ≠ [] := fun h' => hn ((joinNames_nil e.names).1 h')
        simp only [this, hn, ne_eq, not_false_eq_true, if_true, if_false]
        exact kept_read e (hmem _ e hg)

/-- The names of an input are attached to this input. -/
theorem C83_input_names (opts : List (ℤ × List Char) × List Char) (inputs : List (List ProtoDim)) (k : ℕ) (dims : List ProtoDim)
    (hk : inputs[k]? = some dims) :
    attached (inputDimParamsList opts inputs) k =
      if inputDimParams opts k dims = [] then none else some (inputDimParams opts k dims) := by
  unfold attached inputDimParamsList
  rw [List.getElem?_map, List.getElem?_zipIdx, hk]
  simp

/-- The same for outputs, when no output without names comes before one with names. -/
theorem C83_output_names_partial (outputs : List (List ProtoDim)) (k : ℕ) (dims : List ProtoDim) (hk : outputs[k]? = some dims)
    (hb : ∀ (j : ℕ) (o : List ProtoDim), j ≤ k → outputs[j]? = some o → dimParams o ≠ []) :
    attached (outputDimParamsList outputs) k = some (dimParams dims) := by
  have key : ∀ (l : List (List Char)) (k : ℕ) (s : List Char), l[k]? = some s →
      (∀ (j : ℕ) (o : List Char), j ≤ k → l[j]? = some o → o ≠ []) → (l.filter (· ≠ []))[k]? = some s := by
    intro l
    induction l with
    | nil => intro k s h; simp at h
    | cons a l ih =>
      intro k s h hb
      have ha : a ≠ [] := hb 0 a (by omega) rfl
      rw [List.filter_cons_of_pos (by simpa using ha)]
      cases k with
      | zero => simpa using h
      | succ k => exact ih k s (by simpa using h) fun j o hj ho => hb (j + 1) o (by omega) (by simpa using ho)
  unfold attached outputDimParamsList
  rw [key (outputs.map dimParams) k (dimParams dims) (by rw [List.getElem?_map, hk]; rfl) ?_]
  · simp [hb k dims le_rfl hk]
  · intro j o hj ho
    rw [List.getElem?_map] at ho
    obtain ⟨q, hq, rfl⟩ := Option.map_eq_some_iff.1 ho
    exact hb j q hj hq

/-- Dimensions that fit into `int` keep their value; 0 and negative numbers are dynamic. -/
theorem C83_dims (v : ℤ) (hv : -2147483648 ≤ v ∧ v < 2147483648) :
    importDim (.value v) = some (if 0 < v then some v.toNat else none) := by
  have : toInt32 v = v := by unfold toInt32; omega
  unfold importDim
  dsimp only
  rw [this]
  split
  · subst_vars; rfl
  · rename_i h
    by_cases h' : 0 < v
    · simp [h']
    · simp [h']

/-! ### Cases -/

/-- `0:3x-1,-1:7,2-4:5x6,1:9,0:8`. -/
def shapeDemo : List ShapeEntry :=
  [⟨.one 0, [some 3, none]⟩, ⟨.all, [some 7]⟩, ⟨.range 2 4, [some 5, some 6]⟩, ⟨.one 1, [some 9]⟩, ⟨.one 0, [some 8]⟩]

example : String.ofList (shapeText shapeDemo) = "0:3x-1,-1:7,2-4:5x6,1:9,0:8" := by decide +kernel

theorem shapeDemo_ok : ∀ e ∈ shapeDemo, e.Ok := by
  intro e he
  simp only [shapeDemo, List.mem_cons, List.not_mem_nil, or_false] at he
  rcases he with rfl | rfl | rfl | rfl | rfl <;> refine ⟨by simp [Sel.Small], fun d hd => ?_⟩ <;> simp at hd <;> omega

/-- The hypotheses hold of it, and the inputs get these shapes. -/
example : (∀ e ∈ shapeDemo, e.Ok) ∧ ((parseShapeInformation (shapeText shapeDemo)).map fun m =>
    (List.range 6).map fun k => reshape none m k [none, some 2, none]) =
    some [[some 3, none, none], [some 9, some 2, none], [some 5, some 6, none], [some 5, some 6, none], [some 5, some 6, none],
      [some 7, some 2, none]] := ⟨shapeDemo_ok, by decide +kernel⟩

/-- `0:1|2:0,-1`. -/
example : ((parseForceDynamic (forceText [⟨some 0, [some 1]⟩, ⟨some 2, [some 0, none]⟩])).map fun m =>
    (List.range 3).map fun k => reshape (some m) [(1, [some 9])] k [some 4, some 5]) =
    some [[some 4, none], [some 9, some 5], [none, none]] := by decide +kernel

example : ∀ e ∈ ([⟨some 0, [some 1]⟩, ⟨some 2, [some 0, none]⟩] : List ForceEntry), e.Ok := by
  intro e he
  simp only [List.mem_cons, List.not_mem_nil, or_false] at he
  rcases he with rfl | rfl
  · exact ⟨fun k hk => by simp at hk; omega, fun d hd => by simp at hd; omega⟩
  · exact ⟨fun k hk => by simp at hk; omega, fun d hd => by simp at hd; omega⟩

/-- `1:0=N,2=M|-1:0=B`, for an input with dimensions `[S, 5, T]`. -/
def paramDemo : List ParamEntry := [⟨some 1, [(0, ['N']), (2, ['M'])]⟩, ⟨none, [(0, ['B'])]⟩]

example : String.ofList (paramText paramDemo) = "1:0=N,2=M|-1:0=B" := by decide +kernel

theorem paramDemo_ok : ∀ e ∈ paramDemo, e.Ok := by
  intro e he
  simp only [paramDemo, List.mem_cons, List.not_mem_nil, or_false] at he
  rcases he with rfl | rfl <;> refine ⟨fun k hk => ?_, fun p hp => ?_⟩
  · simp at hk; omega
  · simp at hp; rcases hp with rfl | rfl <;> decide
  · simp at hk
  · simp at hp; subst hp; decide

/-- The hypotheses hold of it, and of the model. -/
example : (parseDimParams (paramText paramDemo)).map (fun m => [String.ofList (inputDimParams m 0 [.param ['S'], .value 5, .param ['T']]),
    String.ofList (inputDimParams m 1 [.param ['S'], .value 5, .param ['T']])]) = some ["0:B", "0:N,2:M"] ∧
    (String.ofList (dimParams [.param ['S'], .value 5, .param ['T']]) = "0:S,2:T") ∧
    (∀ s, ProtoDim.param s ∈ [ProtoDim.param ['S'], .value 5, .param ['T']] → ',' ∉ s) := by
  refine ⟨by decide +kernel, by decide +kernel, ?_⟩
  intro s hs
  simp only [List.mem_cons, ProtoDim.param.injEq, reduceCtorEq, List.not_mem_nil, or_false, false_or] at hs
  rcases hs with rfl | rfl <;> decide

/-- An output without names before one with names: the names are attached to the wrong output. -/
theorem C83_output_names_false : ∃ outputs : List (List ProtoDim), outputs[0]? = some [.value 3] ∧
    attached (outputDimParamsList outputs) 0 = some (dimParams [.param ['N']]) ∧ outputs[1]? = some [.param ['N']] ∧
    attached (outputDimParamsList outputs) 1 = none :=
  ⟨[[.value 3], [.param ['N']]], rfl, by decide +kernel, rfl, by decide +kernel⟩

/-- A dimension larger than an `int` is cut: 2^32 + 5 becomes 5. -/
theorem C83_wide_false : importDim (.value 4294967301) = some (some 5) := by decide +kernel

/-- An entry without colon is not refused: `3x5` sets input 3 to `3x5`. -/
theorem C83_no_colon_false : parseShapeInformation "3x5".toList = some [(3, [some 3, some 5])] := by decide +kernel

/-- What follows a number is ignored: `0:3ax4b` is read as `0:3x4`. -/
theorem C83_garbage_false : parseShapeInformation "0:3axq".toList = none ∧
    parseShapeInformation "0:3ax4b".toList = some [(0, [some 3, some 4])] := by decide +kernel

/-- A name with a comma makes the analysis fail with an exception. -/
theorem C83_comma_false : getONNXDimParams (dimParams [.param "a,b".toList]) = none := by decide +kernel

end Verif.Props
