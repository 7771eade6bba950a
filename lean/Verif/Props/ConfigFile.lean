import Verif.Config.Lemmas
/-!
# C122: configuration files

A configuration file named on the command line is the one that is used; otherwise it is
`omconfig.json` beside the model. Its options come before those of the command line, so that the
command line wins. An object keeps what it loaded first, and what it stores can be loaded again.
-/
namespace Verif.Props
open Verif.Config

/-- **C122.** The last configuration file named on the command line is the one that is used,
wherever it stands and whichever of the four forms it has. -/
theorem C122_named (items : List Item) (hok : ∀ i ∈ items, i.Ok) (v : Str)
    (hv : (items.filterMap Item.config?).getLast? = some v) (hne : v ≠ []) :
    configPath (items.flatMap Item.words) = v := by
  unfold configPath
  rw [configFile_items items hok, hv]
  cases v with
  | nil => exact (hne rfl).elim
  | cons a l => rfl

/-- Witness: `-config-file a -O3 m --config-file=b -o n`. -/
example : configPath ([Item.separate false ['a'], .flag ['-', 'O', '3'], .word ['m'],
    .joined true ['b'], .flag ['-', 'o'], .word ['n']].flatMap Item.words) = ['b'] := by
  apply C122_named _ _ ['b'] rfl (by simp)
  intro i hi
  simp only [List.mem_cons, List.not_mem_nil, or_false] at hi
  rcases hi with rfl | rfl | rfl | rfl | rfl | rfl
  · simp [Item.Ok]
  · exact ⟨⟨_, _, rfl⟩, by intro d; cases d <;> simp [optionName]⟩
  · exact ⟨by simp, by simp⟩
  · trivial
  · exact ⟨⟨_, _, rfl⟩, by intro d; cases d <;> simp [optionName]⟩
  · exact ⟨by simp, by simp⟩

/-- **C122 (partial).** Without a named configuration file, it is `omconfig.json` in the directory
of the model. What is missing: an option before the model with its value in a separate word, see
`C122_default_false`. -/
theorem C122_default_partial (pre post : List Item) (input p : Str)
    (hok : ∀ i ∈ pre ++ .word input :: post, i.Ok) (hpre : ∀ i ∈ pre, i.oneWordOption)
    (hnone : ∀ i ∈ pre ++ .word input :: post, i.config? = none) (hp : Beside input p) :
    configPath ((pre ++ .word input :: post).flatMap Item.words) = p := by
  have hc : (pre ++ .word input :: post).filterMap Item.config? = [] := by
    rw [List.filterMap_eq_nil_iff]
    exact hnone
  unfold configPath
  rw [configFile_items _ hok, hc]
  have hin : inputFile ((pre ++ .word input :: post).flatMap Item.words) = input := by
    rw [List.flatMap_append, inputFile_pre pre fun i hi =>
      ⟨hok i (List.mem_append_left _ hi), hpre i hi⟩]
    exact inputFile_word input (hok _ (List.mem_append_right _ List.mem_cons_self)) _
  rw [hin]
  exact besideDefault_spec input p hp

/-- Witness: `-O3 d//m -o n` looks for `d/omconfig.json`. -/
example : configPath ([Item.flag ['-', 'O', '3']] ++ Item.word ['d', '/', '/', 'm'] ::
    [.flag ['-', 'o'], .word ['n']] |>.flatMap Item.words) = ['d', '/'] ++ omconfig := by
  apply C122_default_partial _ _ _ _ _ _ _ (Beside.dir [] 'd' (by decide) 1 ['m'] (by decide))
  · intro i hi
    simp only [List.cons_append, List.nil_append, List.mem_cons, List.not_mem_nil, or_false] at hi
    rcases hi with rfl | rfl | rfl | rfl
    · exact ⟨⟨_, _, rfl⟩, by intro d; cases d <;> simp [optionName]⟩
    · exact ⟨by simp, by simp⟩
    · exact ⟨⟨_, _, rfl⟩, by intro d; cases d <;> simp [optionName]⟩
    · exact ⟨by simp, by simp⟩
  · intro i hi
    simp only [List.mem_cons, List.not_mem_nil, or_false] at hi
    rw [hi]
    trivial
  · intro i hi
    simp only [List.cons_append, List.nil_append, List.mem_cons, List.not_mem_nil, or_false] at hi
    rcases hi with rfl | rfl | rfl | rfl <;> rfl

/-- **C122 (disagreement).** With `-o b/n a/m` the directory of the output is searched, and not
that of the model. -/
theorem C122_default_false :
    ∃ (output input p q : Str), Beside input p ∧ Beside output q ∧ p ≠ q ∧
      configPath [['-', 'o'], output, input] = q := by
  refine ⟨['b', '/', 'n'], ['a', '/', 'm'], 'a' :: '/' :: omconfig, 'b' :: '/' :: omconfig,
    Beside.dir [] 'a' (by decide) 0 ['m'] (by decide),
    Beside.dir [] 'b' (by decide) 0 ['n'] (by decide), by simp, ?_⟩
  decide

/-- **C122.** The options that are parsed are those of the configuration file followed by the
command line, so that every option has the value that the command line gives it, else the value of
the file, if the file is good; and that of the command line alone if it is not. -/
theorem C122_options {β : Type} (parse : Str → Option Json) (fs : Str → File) (args : List Str)
    (m : Str → Option β) :
    optValue m (allArgs parse fs args) =
      (optValue m args).or
        ((goodFile parse (fs (configPath args))).bind fun o => optValue m (optionsOf o)) := by
  have hall : allArgs parse fs args =
      (match goodFile parse (fs (configPath args)) with
        | some o => optionsOf o
        | none => []) ++ args := by
    unfold allArgs loadCompileOptions loadFromFile
    simp only [Bool.false_eq_true, if_false, readFile_eq]
    cases hg : goodFile parse (fs (configPath args)) with
    | none =>
      simp only []
      split <;> rfl
    | some o =>
      have he : (fs (configPath args)).exists = true := by
        cases hf : fs (configPath args) with
        | missing => simp [hf, goodFile] at hg
        | unreadable => rfl
        | text s => rfl
      simp only [he, Bool.not_true, Bool.false_eq_true, if_false]
      rw [getCompileOptions_eq]
  rw [hall]
  unfold optValue
  rw [List.filterMap_append, List.getLast?_append]
  cases goodFile parse (fs (configPath args)) with
  | none => simp
  | some o => rfl

/-- Witness: the file says `-O2` and `-v`, the command line `-O3`. -/
example :
    let parse : Str → Option Json := fun _ =>
      some (.obj [(compileOptions, .arr [.str ['-', 'O', '2'], .other, .str ['-', 'v']])])
    let level : Str → Option Char := fun s => match s with
      | ['-', 'O', c] => some c
      | _ => none
    let v : Str → Option Unit := fun s => if s = ['-', 'v'] then some () else none
    let args : List Str := [['-', 'O', '3'], ['m']]
    optValue level (allArgs parse (fun _ => .text []) args) = some '3' ∧
      optValue v (allArgs parse (fun _ => .text []) args) = some () := by
  refine ⟨?_, ?_⟩
  · rw [C122_options]; decide
  · rw [C122_options]; decide

/-- **C122 (disagreement).** A configuration file that is named and does not exist is not an
error, although the documentation says that it is: the compilation goes on with the command line
alone. -/
theorem C122_missing_false (parse : Str → Option Json) (fs : Str → File) (v : Str)
    (hm : fs v = .missing) (hv : v ≠ []) (input : Str) (hi : (Item.word input).Ok) :
    allArgs parse fs ([Item.joined true v, .word input].flatMap Item.words) =
      [Item.joined true v, .word input].flatMap Item.words := by
  have hp := C122_named [Item.joined true v, .word input] (by
    intro i h
    simp only [List.mem_cons, List.not_mem_nil, or_false] at h
    rcases h with rfl | rfl
    · trivial
    · exact hi) v rfl hv
  unfold allArgs loadCompileOptions
  rw [hp]
  simp [hm, File.exists]

/-- Witness. -/
example : ∃ (fs : Str → File) (v input : Str), fs v = .missing ∧ v ≠ [] ∧ (Item.word input).Ok :=
  ⟨fun _ => .missing, ['x'], ['m'], rfl, by simp, by simp, by simp⟩

/-- **C122.** One object and any history of loads, over file systems that change: the object has
the contents and the path of the first good file, and none before. The next load succeeds when it
is the first good one, or names the path that was loaded. -/
theorem C122_history (parse : Str → Option Json) (h : List ((Str → File) × Str))
    (fs : Str → File) (p : Str) :
    match h.find? fun a => (goodFile parse (a.1 a.2)).isSome with
    | none =>
      loads parse h {} = {} ∧
        (loadFromFile parse fs (loads parse h {}) p).1 = (goodFile parse (fs p)).isSome
    | some a =>
      some (loads parse h {}).content = goodFile parse (a.1 a.2) ∧
        (loads parse h {}).filePath = a.2 ∧ (loads parse h {}).loaded = true ∧
        (loadFromFile parse fs (loads parse h {}) p).1 = decide (a.2 = p) := by
  induction h with
  | nil =>
    refine ⟨rfl, ?_⟩
    simp only [loads, loadFromFile, Bool.false_eq_true, if_false, readFile_eq]
    cases goodFile parse (fs p) <;> rfl
  | cons a rest ih =>
    obtain ⟨fs', q⟩ := a
    cases hg : goodFile parse (fs' q) with
    | none =>
      have e : loads parse ((fs', q) :: rest) {} = loads parse rest {} := by
        simp [loads, loadFromFile, readFile_eq, hg]
      simp only [List.find?_cons, hg, Option.isSome_none, e]
      exact ih
    | some o =>
      have e : loads parse ((fs', q) :: rest) {} =
          { content := o, filePath := q, loaded := true } := by
        simp [loads, loadFromFile, readFile_eq, hg, loads_loaded]
      simp only [List.find?_cons, hg, Option.isSome_some, e]
      refine ⟨trivial, trivial, trivial, ?_⟩
      unfold loadFromFile
      by_cases hq : q = p <;> simp [hq]

/-- Witness: a file that is not there, a good file, and another good file that is refused. -/
example :
    let parse : Str → Option Json := fun s => some (.obj [(s, .other)])
    let fs : Str → File := fun p => if p = ['x'] then .missing else .text p
    let o := loads parse [(fs, ['x']), (fs, ['y'])] {}
    o.filePath = ['y'] ∧ o.content.length = 1 ∧ (loadFromFile parse fs o ['z']).1 = false ∧
      (loadFromFile parse fs o ['y']).1 = true := by
  decide

/-- **C122.** What an object stores can be loaded again, by any object that has loaded nothing:
the contents are the same, and no other file changes. An object without contents is not stored.
The hypothesis is that
the parser of JSON reads what the printer wrote, with a line break at the end. -/
theorem C122_store (parse : Str → Option Json) (print : List (Str × Json) → Str)
    (writable : Str → Bool) (fs : Str → File) (o : Object) (p : Str)
    (hpp : parse (print o.content ++ ['\n']) = some (.obj o.content)) :
    let r := storeToFile print writable fs o p
    (r.1 = true ↔ o.content ≠ [] ∧ writable p = true) ∧
      (r.1 = false → r.2 = fs) ∧
      (∀ q, q ≠ p → r.2 q = fs q) ∧
      (r.1 = true → ∀ n : Object, n.loaded = false →
        (loadFromFile parse r.2 n p).1 = true ∧
          (loadFromFile parse r.2 n p).2.content = o.content) := by
  intro r
  have hr : r = storeToFile print writable fs o p := rfl
  clear_value r
  subst hr
  unfold storeToFile
  cases hc : o.content with
  | nil => simp
  | cons a l =>
    cases hw : writable p with
    | false => simp
    | true =>
      refine ⟨by simp, by simp, ?_, ?_⟩
      · intro q hq
        simp [hq]
      · intro _ n hn
        rw [hc] at hpp
        simp [loadFromFile, hn, readFile, hpp, storeParsed]

/-- Witness: an object with an option. -/
example :
    let o : Object := { content := [(compileOptions, .arr [.str ['-', 'v']])] }
    let parse : Str → Option Json := fun s => if s = ['t', '\n'] then some (.obj o.content) else none
    parse ((fun _ => ['t']) o.content ++ ['\n']) = some (.obj o.content) ∧ o.content ≠ [] := by
  refine ⟨rfl, by simp⟩

end Verif.Props
