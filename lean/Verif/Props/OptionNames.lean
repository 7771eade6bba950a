import Verif.OptRegex.Lemmas

/-!
# C119: options that select operations by name
-/

namespace Verif.Props

open Verif.OptRegex

theorem comma_eq {c d : Char} (hd : d ≠ ' ') (h : comma c = d) : c = d := by
  unfold comma at h
  split at h
  · exact absurd h.symm hd
  · exact h

theorem mem_map_comma {d : Char} (hd : d ≠ ' ') (hc : d ≠ ',') (s : Str) : d ∈ s.map comma ↔ d ∈ s := by
  rw [List.mem_map]
  constructor
  · rintro ⟨c, h1, h2⟩; rwa [← comma_eq hd h2]
  · intro h; exact ⟨d, h, by simp [comma, hc]⟩

theorem infix_map_comma {x y : Char} (hx : x ≠ ' ') (hy : y ≠ ' ') (hx' : x ≠ ',') (hy' : y ≠ ',') (s : Str) :
    [x, y] <:+: s.map comma ↔ [x, y] <:+: s := by
  constructor
  · rintro ⟨a, b, h⟩
    obtain ⟨l, b', rfl, hl, _⟩ := List.map_eq_append_iff.1 h.symm
    obtain ⟨a', q, rfl, _, hq⟩ := List.map_eq_append_iff.1 hl
    obtain ⟨x', q', rfl, h1, hq'⟩ := List.map_eq_cons_iff.1 hq
    obtain ⟨y', q'', rfl, h2, hq''⟩ := List.map_eq_cons_iff.1 hq'
    have : q'' = [] := by simpa using hq''
    subst this
    rw [comma_eq hx h1, comma_eq hy h2]
    exact ⟨a', b', rfl⟩
  · rintro ⟨a, b, rfl⟩
    exact ⟨a.map comma, b.map comma, by simp [comma, hx', hy']⟩

theorem hasRegex_iff (s : Str) : hasRegex (s.map comma) = true ↔ AsRegex s := by
  unfold hasRegex AsRegex
  simp only [Bool.or_eq_true, decide_eq_true_eq, List.contains_iff_mem,
    infix_map_comma (x := '.') (y := '*') (by decide) (by decide) (by decide) (by decide),
    infix_map_comma (x := '\\') (y := '.') (by decide) (by decide) (by decide) (by decide),
    mem_map_comma (d := '^') (by decide) (by decide), mem_map_comma (d := '$') (by decide) (by decide),
    mem_map_comma (d := '[') (by decide) (by decide), mem_map_comma (d := '+') (by decide) (by decide),
    mem_map_comma (d := '?') (by decide) (by decide), or_assoc]

theorem simple_not_regex {s : Str} (h : Simple s) : ¬ AsRegex s := by
  rintro (h1 | h1 | h1 | h1 | h1 | h1 | h1)
  · exact h.2 h1
  · obtain ⟨a, b, rfl⟩ := h1
    have := h.1 '\\' (by simp) (by decide)
    revert this; decide
  all_goals
    have := h.1 _ h1 (by decide)
    revert this; decide

/-- For an option of simple patterns, a name is enabled exactly when one of the patterns fits it, whatever was asked before. -/
theorem C119_simple (rx : Str → Str → Option Bool) (hrx : RxOk rx) (emptyIsNone : Bool) (s : Str) (hs : Simple s) (hl : Listed s)
    (names : List Str) (hn : ∀ n ∈ names, OneLine n) :
    ∃ bs, ask rx emptyIsNone s names = some bs ∧
      List.Forall₂ (fun n b => b = true ↔ ∃ p, IsPattern s p ∧ Glob p n) names bs := by
  have hx : expressions s = (words (s.map comma) []).map (List.flatMap subst) := by
    have h := words_flatMap (s.map comma) []
    simp only [List.flatMap_nil] at h
    have hf : hasRegex (s.map comma) = false := by
      rw [← Bool.not_eq_true, hasRegex_iff]; exact simple_not_regex hs
    simp only [expressions, hf, Bool.false_eq_true, if_false]
    exact h
  have hp : ∀ p, IsPattern s p → ∀ c ∈ p, c ∈ special → c = '.' ∨ c = '*' := by
    rintro p ⟨a, b, rfl, _⟩ c hc
    exact hs.1 c (by simp [hc])
  have key : ∀ n ∈ names, ∃ b, plain rx ⟨false, false, expressions s, []⟩ n = some b ∧
      (b = true ↔ ∃ p, IsPattern s p ∧ Glob p n) := by
    intro n hmem
    have hall : ∀ e ∈ expressions s, ∃ p, IsPattern s p ∧ e = p.flatMap subst := by
      intro e he
      rw [hx] at he
      obtain ⟨p, h1, rfl⟩ := List.mem_map.1 he
      exact ⟨p, (mem_words_isPattern s p).1 h1, rfl⟩
    obtain ⟨b, h1, h2⟩ := search_some rx n (expressions s) (by
      intro e he
      obtain ⟨p, h1, rfl⟩ := hall e he
      exact (hrx _ _ (tokens_subst p (hp p h1)) (valid_tok1 p) n).1)
    refine ⟨b, by simpa [plain] using h1, h2.trans ?_⟩
    constructor
    · rintro ⟨e, he, h3⟩
      obtain ⟨p, h4, rfl⟩ := hall e he
      exact ⟨p, h4, fit_glob ((hrx _ _ (tokens_subst p (hp p h4)) (valid_tok1 p) n).2.1 h3) p rfl⟩
    · rintro ⟨p, h3, h4⟩
      refine ⟨p.flatMap subst, ?_, ?_⟩
      · rw [hx]; exact List.mem_map_of_mem ((mem_words_isPattern s p).2 h3)
      · exact (hrx _ _ (tokens_subst p (hp p h3)) (valid_tok1 p) n).2.2 (glob_fit h4 (hn n hmem))
  obtain ⟨bs, hbs⟩ := exists_forall₂ names key
  refine ⟨bs, (ask_iff _ _ _ _ _).2 ⟨_, setRegex_listed _ hl, forall₂_imp (fun _ _ h => h.1) hbs⟩, forall₂_imp (fun _ _ h => h.2) hbs⟩

/-- For an option with regular expressions, a name is enabled exactly when the library says that one of them matches it. -/
theorem C119_regex (rx : Str → Str → Option Bool) (emptyIsNone : Bool) (s : Str) (hs : AsRegex s) (hl : Listed s)
    (hv : ∀ p, IsPattern s p → ∀ n, (rx p n).isSome) (names : List Str) :
    ∃ bs, ask rx emptyIsNone s names = some bs ∧
      List.Forall₂ (fun n b => b = true ↔ ∃ p, IsPattern s p ∧ rx p n = some true) names bs := by
  have hx : expressions s = words (s.map comma) [] := by
    simp only [expressions, (hasRegex_iff s).2 hs, if_true]
  have key : ∀ n ∈ names, ∃ b, plain rx ⟨false, false, expressions s, []⟩ n = some b ∧
      (b = true ↔ ∃ p, IsPattern s p ∧ rx p n = some true) := by
    intro n _
    obtain ⟨b, h1, h2⟩ := search_some rx n (expressions s) (by
      intro e he
      rw [hx] at he
      exact hv e ((mem_words_isPattern s e).1 he) n)
    refine ⟨b, by simpa [plain] using h1, h2.trans ?_⟩
    rw [hx]
    simp only [mem_words_isPattern]
  obtain ⟨bs, hbs⟩ := exists_forall₂ names key
  refine ⟨bs, (ask_iff _ _ _ _ _).2 ⟨_, setRegex_listed _ hl, forall₂_imp (fun _ _ h => h.1) hbs⟩, forall₂_imp (fun _ _ h => h.2) hbs⟩

/-- Answers do not depend on what was asked before: each is what the option answers when it is asked for that name only. -/
theorem C119_history (rx : Str → Str → Option Bool) (emptyIsNone : Bool) (s : Str) (names : List Str) (bs : List Bool)
    (h : ask rx emptyIsNone s names = some bs) :
    List.Forall₂ (fun n b => ask rx emptyIsNone s [n] = some [b]) names bs := by
  obtain ⟨o, h1, h2⟩ := (ask_iff _ _ _ _ _).1 h
  exact forall₂_imp (fun n b hb => (ask_iff _ _ _ _ _).2 ⟨o, h1, .cons hb .nil⟩) h2

/-- The special values: NONE disables all names, ALL enables all of them, both are an error, and the empty option does what the
developer chose. -/
theorem C119_special (rx : Str → Str → Option Bool) (emptyIsNone : Bool) (s : Str) (names : List Str) :
    ask rx emptyIsNone [] names = some (names.map fun _ => !emptyIsNone) ∧
    ("NONE".toList <:+: s → ¬ "ALL".toList <:+: s → ask rx emptyIsNone s names = some (names.map fun _ => false)) ∧
    ("ALL".toList <:+: s → ¬ "NONE".toList <:+: s → ask rx emptyIsNone s names = some (names.map fun _ => true)) ∧
    ("ALL".toList <:+: s → "NONE".toList <:+: s → ask rx emptyIsNone s names = none) := by
  have const : ∀ (o : Opt) (v : Bool), (∀ n, plain rx o n = some v) →
      List.Forall₂ (fun n b => plain rx o n = some b) names (names.map fun _ => v) := by
    intro o v h
    induction names with
    | nil => exact .nil
    | cons n ns ih => exact .cons (h n) ih
  have ne : ∀ {l : Str}, l ≠ [] → l <:+: s → s ≠ [] := by
    rintro l hl h rfl
    exact hl (List.eq_nil_of_infix_nil h)
  refine ⟨?_, ?_, ?_, ?_⟩
  · refine (ask_iff _ _ _ _ _).2 ⟨⟨!emptyIsNone, emptyIsNone, [], []⟩, ?_, const _ _ ?_⟩
    · cases emptyIsNone <;> rfl
    · intro n; cases emptyIsNone <;> rfl
  · intro h1 h2
    refine (ask_iff _ _ _ _ _).2 ⟨⟨false, true, [], []⟩, ?_, const _ _ fun _ => rfl⟩
    simp only [setRegex, ne (by decide) h1, if_false, h1, h2, decide_true, decide_false, Bool.and_false, Bool.false_eq_true,
      Bool.or_false, if_true]
  · intro h1 h2
    refine (ask_iff _ _ _ _ _).2 ⟨⟨true, false, [], []⟩, ?_, const _ _ fun _ => rfl⟩
    simp only [setRegex, ne (by decide) h1, if_false, h1, h2, decide_true, decide_false, Bool.false_and, Bool.false_eq_true,
      Bool.false_or, if_true]
  · intro h1 h2
    have : setRegex emptyIsNone s = none := by
      simp only [setRegex, ne (by decide) h1, if_false, h1, h2, decide_true, Bool.and_self, if_true]
    simp [ask, this]

/-- The documentation says that a star stands for any sequence. This is false when another pattern of the option has a point
before a star: with `M*,N.*` the name MatMul is not enabled, although `M*` alone enables it. -/
theorem C119_mixed_false (rx : Str → Str → Option Bool) (hrx : RxOk rx) (emptyIsNone : Bool) :
    ask rx emptyIsNone "M*,N.*".toList ["MatMul".toList] = some [false] ∧
    ask rx emptyIsNone "M*".toList ["MatMul".toList] = some [true] ∧
    IsPattern "M*,N.*".toList "M*".toList ∧ Glob "M*".toList "MatMul".toList := by
  have hg : Glob "M*".toList "MatMul".toList :=
    .char (by decide) (.starMore (.starMore (.starMore (.starMore (.starMore (.starEnd .nil))))))
  refine ⟨?_, ?_, ⟨[], ",N.*".toList, by decide, by decide, by decide, .inl rfl, .inr ⟨',', "N.*".toList, by decide, by decide⟩⟩,
    hg⟩
  · have em : "MatMul".toList = ['M', 'a', 't', 'M', 'u', 'l'] := by decide
    have e1 : tokens "M*".toList = some [.cls (.lit 'M'), .star] := by rfl
    have e2 : tokens "N.*".toList = some [.cls (.lit 'N'), .cls .any, .star] := by rfl
    obtain ⟨a1, a2⟩ := hrx _ _ e1 (by simp [Valid]) "MatMul".toList
    obtain ⟨b1, b2⟩ := hrx _ _ e2 (by simp [Valid]) "MatMul".toList
    have f1 : ¬ Fit [.cls (.lit 'M'), .star] "MatMul".toList := by
      rw [em]
      intro h
      cases h with
      | one h _ _ => exact h _ rfl
      | stop h => cases h
      | more _ h =>
        cases h with
        | one h _ _ => exact h _ rfl
        | stop h => cases h
        | more h _ => exact absurd h (by simp [Cls.Fits])
    have f2 : ¬ Fit [.cls (.lit 'N'), .cls .any, .star] "MatMul".toList := by
      rw [em]
      intro h
      cases h with
      | one _ h _ => exact absurd h (by simp [Cls.Fits])
    obtain ⟨v1, hv1⟩ := Option.isSome_iff_exists.1 a1
    obtain ⟨v2, hv2⟩ := Option.isSome_iff_exists.1 b1
    have g1 : v1 = false := by
      cases v1 with
      | false => rfl
      | true => exact absurd (a2.1 hv1) f1
    have g2 : v2 = false := by
      cases v2 with
      | false => rfl
      | true => exact absurd (b2.1 hv2) f2
    subst g1 g2
    refine (ask_iff _ _ _ _ _).2 ⟨_, setRegex_listed _ (by unfold Listed; decide), .cons ?_ .nil⟩
    have : expressions "M*,N.*".toList = ["M*".toList, "N.*".toList] := by decide +kernel
    simp only [plain, Bool.false_eq_true, if_false, this, search, hv1, hv2]
  · obtain ⟨bs, h1, h2⟩ := C119_simple rx hrx emptyIsNone "M*".toList
      (by unfold Simple; exact ⟨by decide +kernel, by decide⟩) (by unfold Listed; decide) ["MatMul".toList]
      (by simp [OneLine])
    cases h2 with
    | @cons _ b _ _ hb ht =>
      cases ht
      have : b = true := hb.2 ⟨"M*".toList, ⟨[], [], by decide, by decide, by decide, .inl rfl, .inl rfl⟩, hg⟩
      rw [h1, this]

/-- The special values are found inside of names too: an option that names one operation enables all of them. -/
theorem C119_inside_false (rx : Str → Str → Option Bool) (emptyIsNone : Bool) (names : List Str) :
    ask rx emptyIsNone "custom.SMALL".toList names = some (names.map fun _ => true) :=
  (C119_special rx emptyIsNone _ names).2.2.1 (by decide) (by decide)

open Classical in
/-- There is a library as it is assumed. -/
theorem rxOk_exists : ∃ rx, RxOk rx := by
  refine ⟨fun e n => match tokens e with | some ts => some (decide (Fit ts n)) | none => none, ?_⟩
  intro e ts h _ n
  simp [h]

example : Simple "onnx.Mat*,onnx.Add".toList ∧ Listed "onnx.Mat*,onnx.Add".toList ∧ OneLine "onnx.MatMul".toList ∧
    IsPattern "onnx.Mat*,onnx.Add".toList "onnx.Add".toList := by
  refine ⟨by unfold Simple; exact ⟨by decide +kernel, by decide⟩, by unfold Listed; decide, by simp [OneLine],
    ⟨"onnx.Mat*,".toList, [], by decide, by decide, by decide, .inr ⟨"onnx.Mat*".toList, ',', by decide, by decide⟩, .inl rfl⟩⟩

example : AsRegex "onnx.*".toList ∧ Listed "onnx.*".toList := by
  refine ⟨.inl (by decide), by unfold Listed; decide⟩

end Verif.Props
