import Verif.Config.Model
/-!
# Configuration files: lemmas (C122)
-/
namespace Verif.Config

theorem readFile_eq (parse : Str → Option Json) (o : Object) (p : Str) (f : File) :
    readFile parse o p f = match goodFile parse f with
      | some l => (true, { content := l, filePath := p, loaded := true })
      | none => (false, o) := by
  cases f with
  | missing => rfl
  | unreadable => rfl
  | text s =>
    simp only [readFile, goodFile]
    cases h : parse s with
    | none => rfl
    | some j => cases j <;> rfl

theorem pushStrings_eq (l : List Json) (args : List Str) :
    pushStrings l args = args ++ strings l := by
  induction l generalizing args with
  | nil => simp [pushStrings, strings]
  | cons v vs ih =>
    cases v <;> simp [pushStrings, asString, strings, ih] <;> rfl

theorem getCompileOptions_eq (o : Object) :
    (getCompileOptions o []).2 = optionsOf o.content := by
  unfold getCompileOptions getArray optionsOf
  cases h : o.content.lookup compileOptions with
  | none => rfl
  | some j =>
    cases j with
    | arr l =>
      cases l with
      | nil => rfl
      | cons a l => simp [pushStrings_eq]
    | _ => rfl

theorem loads_loaded (parse : Str → Option Json) (h : List ((Str → File) × Str)) (o : Object)
    (ho : o.loaded = true) : loads parse h o = o := by
  induction h with
  | nil => rfl
  | cons a rest ih =>
    obtain ⟨fs, p⟩ := a
    have : (loadFromFile parse fs o p).2 = o := by
      unfold loadFromFile
      simp only [ho, if_true]
      split <;> rfl
    simp [loads, this, ih]

/-! ## The command line -/

theorem isOption_iff (s : Str) : isOption s = true ↔ ∃ c r, s = '-' :: c :: r := by
  constructor
  · intro h
    unfold isOption at h
    split at h
    · exact ⟨_, _, rfl⟩
    · cases h
  · rintro ⟨c, r, rfl⟩
    rfl

theorem optionName_cons (d : Bool) : ∃ c r, optionName d = '-' :: c :: r := by
  cases d <;> exact ⟨_, _, rfl⟩

theorem inputFile_pre (pre : List Item) (hp : ∀ i ∈ pre, i.Ok ∧ i.oneWordOption)
    (rest : List Str) : inputFile (pre.flatMap Item.words ++ rest) = inputFile rest := by
  induction pre with
  | nil => rfl
  | cons i pre ih =>
    have hi := hp i (List.mem_cons_self)
    have hr := ih fun j hj => hp j (List.mem_cons_of_mem _ hj)
    cases i with
    | flag s =>
      have : isOption s = true := (isOption_iff s).2 hi.1.1
      simpa [Item.words, inputFile, this] using hr
    | joined d v =>
      have : isOption (optionName d ++ '=' :: v) = true := by cases d <;> rfl
      simpa [Item.words, inputFile, this] using hr
    | word s => exact hi.2.elim
    | separate d v => exact hi.2.elim

theorem inputFile_word (s : Str) (h : (Item.word s).Ok) (rest : List Str) :
    inputFile (s :: rest) = s := by
  have : isOption s = false := by
    cases hs : isOption s with
    | false => rfl
    | true =>
      obtain ⟨c, r, e⟩ := (isOption_iff s).1 hs
      exact (h.2 c r e).elim
  simp [inputFile, this]

theorem not_begins (d : Bool) (t s : Str) (h : ¬ optionName d <+: s) :
    beginsWith (optionName d ++ t) s = false := by
  rw [Bool.eq_false_iff]
  intro hb
  exact h ((List.prefix_append _ _).trans (List.isPrefixOf_iff_prefix.1 hb))

theorem not_begins' (d : Bool) (s : Str) (h : ¬ optionName d <+: s) :
    beginsWith (optionName d) s = false := by
  simpa using not_begins d [] s h

theorem word_not_option (s : Str) (h : (Item.word s).Ok) (d : Bool) : ¬ optionName d <+: s := by
  rintro ⟨t, rfl⟩
  obtain ⟨c, r, e⟩ := optionName_cons d
  exact h.2 c (r ++ t) (by rw [e]; rfl)

theorem configFile_plain (s : Str) (h : ∀ d, ¬ optionName d <+: s) (rest : List Str) (c : Str) :
    configFile (s :: rest) c = configFile rest c := by
  have h1 := not_begins true ['='] s (h true)
  have h2 := not_begins' true s (h true)
  have h3 := not_begins false ['='] s (h false)
  have h4 := not_begins' false s (h false)
  cases rest <;> simp [configFile, twoDashes, oneDash, h1, h2, h3, h4]

theorem configFile_joined (d : Bool) (v : Str) (rest : List Str) (c : Str) :
    configFile ((optionName d ++ '=' :: v) :: rest) c = configFile rest v := by
  cases d <;> cases rest <;>
    simp [configFile, twoDashes, oneDash, beginsWith, optionName, List.isPrefixOf]

theorem configFile_separate (d : Bool) (v : Str) (rest : List Str) (c : Str) :
    configFile (optionName d :: v :: rest) c = configFile rest v := by
  cases d <;> simp [configFile, twoDashes, oneDash, beginsWith, optionName, List.isPrefixOf]

theorem configFile_items (items : List Item) (h : ∀ i ∈ items, i.Ok) (c : Str) :
    configFile (items.flatMap Item.words) c =
      ((items.filterMap Item.config?).getLast?).getD c := by
  induction items generalizing c with
  | nil => rfl
  | cons i items ih =>
    have hi := h i (List.mem_cons_self)
    have hr := fun c => ih (fun j hj => h j (List.mem_cons_of_mem _ hj)) c
    cases i with
    | flag s =>
      simpa [Item.words, Item.config?, configFile_plain s hi.2] using hr c
    | word s =>
      simpa [Item.words, Item.config?, configFile_plain s (word_not_option s hi)] using hr c
    | joined d v =>
      simp [Item.words, Item.config?, configFile_joined, hr, List.getLast?_cons]
    | separate d v =>
      simp [Item.words, Item.config?, configFile_separate, hr, List.getLast?_cons]

/-! ## Paths -/

theorem dropWhile_notSlash (b rest : Str) (hb : '/' ∉ b) :
    (b.reverse ++ '/' :: rest).dropWhile notSlash = '/' :: rest := by
  rw [List.dropWhile_append_of_pos]
  · simp [List.dropWhile, notSlash]
  · intro c hc
    have : c ≠ '/' := fun e => hb (by simpa [e] using hc)
    simp [notSlash, this]

theorem dropWhile_none (b : Str) (hb : '/' ∉ b) : b.reverse.dropWhile notSlash = [] := by
  have := List.dropWhile_append_of_pos (l₁ := b.reverse) (l₂ := []) (p := notSlash) (by
    intro c hc
    have : c ≠ '/' := fun e => hb (by simpa [e] using hc)
    simp [notSlash, this])
  simpa using this

theorem dropWhile_slashes (n : Nat) (rest : Str) :
    (List.replicate n '/' ++ rest).dropWhile isSlash = rest.dropWhile isSlash := by
  rw [List.dropWhile_append_of_pos]
  intro c hc
  simp [isSlash, List.eq_of_mem_replicate hc]

theorem besideDefault_spec (input p : Str) (h : Beside input p) : besideDefault input = p := by
  cases h with
  | here b hb =>
    simp [besideDefault, dropWhile_none _ hb]
  | root n b hb =>
    have e : (List.replicate (n + 1) '/' ++ b).reverse =
        b.reverse ++ '/' :: List.replicate n '/' := by
      rw [List.reverse_append, List.reverse_replicate, List.replicate_succ]
    have e2 : ('/' :: List.replicate n '/').dropWhile isSlash = [] := by
      have := dropWhile_slashes (n + 1) []
      simpa [List.replicate_succ] using this
    unfold besideDefault
    rw [e, dropWhile_notSlash _ _ hb]
    simp only [e2]
  | dir d c hc n b hb =>
    have e : (d ++ [c] ++ List.replicate (n + 1) '/' ++ b).reverse =
        b.reverse ++ '/' :: (List.replicate n '/' ++ c :: d.reverse) := by
      rw [← List.cons_append, ← List.replicate_succ]
      simp [List.reverse_append]
    have e2 : ('/' :: (List.replicate n '/' ++ c :: d.reverse)).dropWhile isSlash =
        c :: d.reverse := by
      have := dropWhile_slashes (n + 1) (c :: d.reverse)
      have hc' : (c :: d.reverse).dropWhile isSlash = c :: d.reverse := by
        have : (c == '/') = false := by simpa using hc
        simp [List.dropWhile, isSlash, this]
      rw [hc'] at this
      simpa [List.replicate_succ] using this
    unfold besideDefault
    rw [e, dropWhile_notSlash _ _ hb]
    simp only [e2]
    simp

end Verif.Config
