import Verif.Signature.Words
/-!
# Signatures: lemmas (C110)
-/
namespace Verif.Signature

theorem digit_mem (n : Nat) : digit n ∈ lit "0123456789" := by
  unfold digit
  have h : ∀ k : Fin 10, Char.ofNat (48 + k.val) ∈ lit "0123456789" := by decide +kernel
  exact h ⟨n % 10, Nat.mod_lt _ (by decide)⟩

theorem natText_chars (fuel n : Nat) : ∀ c ∈ natText fuel n, c ∈ lit "0123456789" := by
  induction fuel generalizing n with
  | zero => simp [natText]
  | succ f ih =>
    unfold natText
    split
    · intro c hc
      rw [List.mem_singleton.mp hc]; exact digit_mem n
    · intro c hc
      rcases List.mem_append.mp hc with h | h
      · exact ih _ c h
      · rw [List.mem_singleton.mp h]; exact digit_mem n

theorem decimal_chars (d : Int) : ∀ c ∈ decimal d, c ∈ lit "-0123456789" := by
  intro c hc
  have hmono : ∀ c ∈ lit "0123456789", c ∈ lit "-0123456789" := by decide +kernel
  unfold decimal at hc
  split at hc
  · rcases List.mem_cons.mp hc with rfl | h
    · decide +kernel
    · exact hmono c (natText_chars _ _ c h)
  · exact hmono c (natText_chars _ _ c hc)

theorem sepBy_chars (P : Char → Prop) (sep : Str) (hs : ∀ c ∈ sep, P c) (xs : List Str)
    (hx : ∀ x ∈ xs, ∀ c ∈ x, P c) : ∀ c ∈ sepBy sep xs, P c := by
  induction xs with
  | nil => simp [sepBy]
  | cons x xs ih =>
    cases xs with
    | nil => simpa [sepBy] using hx x (by simp)
    | cons y ys =>
      intro c hc
      simp only [sepBy, List.mem_append] at hc
      rcases hc with (h | h) | h
      · exact hx x (by simp) c h
      · exact hs c h
      · exact ih (fun z hz => hx z (by simp [hz])) c h

/-- The text of the dimensions. -/
def dimsText (dims : List Int) : Str :=
  lit "[" ++ sepBy (lit " , ") (dims.map decimal) ++ lit "]"

theorem dimsText_chars (dims : List Int) : ∀ c ∈ dimsText dims, c ∈ lit "-0123456789 ,[]" := by
  have hs : ∀ c ∈ lit " , ", c ∈ lit "-0123456789 ,[]" := by decide +kernel
  have hm : ∀ c ∈ lit "-0123456789", c ∈ lit "-0123456789 ,[]" := by decide +kernel
  intro c hc
  simp only [dimsText, List.mem_append] at hc
  rcases hc with (h | h) | h
  · revert c; decide +kernel
  · refine sepBy_chars _ _ hs _ ?_ c h
    intro x hx c hc
    obtain ⟨d, _, rfl⟩ := List.mem_map.mp hx
    exact hm c (decimal_chars d c hc)
  · revert c; decide +kernel

theorem quoteWords_dims (dims : List Int) : quoteWords (dimsText dims) = dimsText dims := by
  apply quoteWords_fi <;> intro h
  · exact absurd (dimsText_chars dims _ h) (by decide +kernel)
  · exact absurd (dimsText_chars dims _ h) (by decide +kernel)

/-! ## Objects -/

/-- A tensor's object, before quoting, as words. -/
theorem tensor_shape (ty : Str) (dims : List Int) (name s : Str) :
    lit "   { \"type\" : " ++ ty ++ lit " , \"dims\" : [" ++
      sepBy (lit " , ") (dims.map decimal) ++ lit "] " ++ lit ", \"name\" : \"" ++ name ++
      lit "\"" ++ lit " }\n" ++ s =
    lit "   { \"type\" :" ++ ' ' :: (ty ++ ' ' :: (lit ", \"dims\" :" ++ ' ' ::
      (dimsText dims ++ ' ' :: (lit ", \"name\" :" ++ ' ' :: (jsonString name ++ ' ' ::
      (lit "}\n" ++ s)))))) := by
  have e1 : lit "   { \"type\" : " = lit "   { \"type\" :" ++ [' '] := by decide +kernel
  have e2 : lit " , \"dims\" : [" = ' ' :: lit ", \"dims\" :" ++ [' ', '['] := by
    decide +kernel
  have e3 : lit "] " = [']', ' '] := by decide +kernel
  have e4 : lit ", \"name\" : \"" = lit ", \"name\" :" ++ [' ', '"'] := by decide +kernel
  have e5 : lit "\"" = ['"'] := by decide +kernel
  have e6 : lit " }\n" = ' ' :: lit "}\n" := by decide +kernel
  have e7 : lit "[" = ['['] := by decide +kernel
  have e8 : lit "]" = [']'] := by decide +kernel
  rw [e1, e2, e3, e4, e5, e6]
  simp only [dimsText, jsonString, e7, e8, List.append_assoc, List.cons_append, List.nil_append]

theorem tensorText_shape (ty : Str) (dims : List Int) (name s : Str) :
    tensorText ty dims name ++ s =
    lit "   { \"type\" :" ++ ' ' :: (ty ++ ' ' :: (lit ", \"dims\" :" ++ ' ' ::
      (dimsText dims ++ ' ' :: (lit ", \"name\" :" ++ ' ' :: (jsonString name ++ ' ' ::
      (lit "}\n" ++ s)))))) := by
  rw [← tensor_shape]
  have e3 : lit "] , \"name\" : " ++ ['"'] = lit "] " ++ lit ", \"name\" : \"" := by
    decide +kernel
  have e5 : lit "\"" = ['"'] := by decide +kernel
  rw [e5]
  simp only [tensorText, jsonString, List.append_assoc]
  have : lit "] " ++ (lit ", \"name\" : \"" ++ (name ++ (['"'] ++ (lit " }\n" ++ s)))) =
      lit "] , \"name\" : " ++ ('"' :: name ++ (['"'] ++ (lit " }\n" ++ s))) := by
    rw [← List.append_assoc, ← e3]; simp
  rw [this]

theorem quoteWords_tensor (ty ty' : Str) (dims : List Int) (name s : Str)
    (hty : quoteWords ty = ty') (hname : quoteWords (jsonString name) = jsonString name)
    (hs : s.head? = some ' ' ∨ s.head? = some '\n') :
    quoteWords (lit "   { \"type\" :" ++ ' ' :: (ty ++ ' ' :: (lit ", \"dims\" :" ++ ' ' ::
      (dimsText dims ++ ' ' :: (lit ", \"name\" :" ++ ' ' :: (jsonString name ++ ' ' ::
      (lit "}\n" ++ s))))))) = tensorText ty' dims name ++ quoteWords s := by
  have c1 : quoteWords (lit "   { \"type\" :") = lit "   { \"type\" :" := by decide +kernel
  have c2 : quoteWords (lit ", \"dims\" :") = lit ", \"dims\" :" := by decide +kernel
  have c3 : quoteWords (lit ", \"name\" :") = lit ", \"name\" :" := by decide +kernel
  rw [quoteWords_space, quoteWords_space, quoteWords_space, quoteWords_space, quoteWords_space,
    quoteWords_space, c1, c2, c3, hty, quoteWords_dims, hname,
    quoteWords_word (lit "}\n") s (by decide +kernel) (by decide +kernel) hs, tensorText_shape]

theorem quoteWords_object (name : Str) (t : Ty) (ht : t.Known)
    (hname : quoteWords (jsonString name) = jsonString name) (s : Str)
    (hs : s.head? = some ' ' ∨ s.head? = some '\n') :
    quoteWords (concatTypeString name t ++ s) = objectText name t ++ quoteWords s := by
  induction t generalizing s with
  | tensor elem dims =>
    rw [concatTypeString, tensor_shape, quoteWords_tensor elem (jsonString elem) dims name s
      (quoteWords_elem elem ht) hname hs, objectText]
  | strings dims =>
    rw [concatTypeString, tensor_shape, quoteWords_tensor _ (jsonString (lit "string")) dims name s
      (by decide +kernel) hname hs, objectText]
  | seq t ih =>
    have e1 : lit "   {\"seq\" : " = lit "   {\"seq\" :" ++ [' '] := by decide +kernel
    have e2 : lit " }\n" = ' ' :: lit "}\n" := by decide +kernel
    have c1 : quoteWords (lit "   {\"seq\" :") = lit "   {\"seq\" :" := by decide +kernel
    have shape : concatTypeString name (.seq t) ++ s = lit "   {\"seq\" :" ++ ' ' ::
        (concatTypeString name t ++ ' ' :: (lit "}\n" ++ s)) := by
      rw [concatTypeString, e1, e2]; simp
    have c2 : quoteWords (' ' :: (lit "}\n" ++ s)) = ' ' :: (lit "}\n" ++ quoteWords s) := by
      have := quoteWords_space [] (lit "}\n" ++ s)
      rw [quoteWords_word (lit "}\n") s (by decide +kernel) (by decide +kernel) hs] at this
      simpa [quoteWords, words, quoteIn, show ([] : Str) ∉ elemTypes by decide +kernel] using this
    rw [shape, quoteWords_space, c1, ih ht _ (.inl rfl), c2, objectText, e1, e2]
    simp

theorem quoteWords_all (xs : List (Ty × Str))
    (hx : ∀ x ∈ xs, x.1.Known ∧ quoteWords (jsonString x.2) = jsonString x.2) (s : Str)
    (hs : s.head? = some '\n') :
    quoteWords (concatAll xs ++ s) =
      sepBy (lit " , ") (xs.map fun x => objectText x.2 x.1) ++ quoteWords s := by
  induction xs with
  | nil => simp [concatAll, sepBy]
  | cons x xs ih =>
    obtain ⟨h1, h2⟩ := hx x (by simp)
    cases xs with
    | nil =>
      simp only [concatAll, List.map_cons, List.map_nil, sepBy]
      exact quoteWords_object x.2 x.1 h1 h2 s (.inr hs)
    | cons y ys =>
      have ih := ih (fun z hz => hx z (by simp [hz]))
      have e : lit " , " = [' ', ',', ' '] := by decide +kernel
      simp only [concatAll, List.map_cons, sepBy] at ih ⊢
      have shape : ∀ (a b : Str), a ++ lit " , " ++ b ++ s = a ++ ' ' :: ([','] ++ ' ' :: (b ++ s)) := by
        intro a b; rw [e]; simp
      rw [shape, quoteWords_object x.2 x.1 h1 h2 _ (.inl rfl)]
      have c : ∀ r, quoteWords (' ' :: ([','] ++ ' ' :: r)) = lit " , " ++ quoteWords r := by
        intro r
        have h := quoteWords_space [] ([','] ++ ' ' :: r)
        rw [quoteWords_space [','] r] at h
        have c1 : quoteWords [','] = [','] := by decide +kernel
        have c2 : quoteWords [] = [] := by decide +kernel
        rw [c1, c2] at h
        rw [e]
        simpa using h
      rw [c, ih]
      simp

/-- The description of the inputs, then of the outputs, each with its end of string. -/
theorem getSignature_eq (ins outs : List (Ty × Str))
    (hi : ∀ x ∈ ins, x.1.Known ∧ PlainName x.2) (ho : ∀ x ∈ outs, x.1.Known ∧ PlainName x.2) :
    getSignature ins outs = inputText ins ++ [nul] ++ '@' :: (outputText outs ++ [nul]) := by
  have hi' : ∀ x ∈ ins, x.1.Known ∧ quoteWords (jsonString x.2) = jsonString x.2 :=
    fun x hx => ⟨(hi x hx).1, quoteWords_clean _ (hi x hx).2.2.2⟩
  have ho' : ∀ x ∈ outs, x.1.Known ∧ quoteWords (jsonString x.2) = jsonString x.2 :=
    fun x hx => ⟨(ho x hx).1, quoteWords_clean _ (ho x hx).2.2.2⟩
  have e1 : lit "[ " = lit "[" ++ [' '] := by decide +kernel
  have e2 : lit "\n]" = ['\n', ']'] := by decide +kernel
  have e3 : lit "@[" = ['@', '['] := by decide +kernel
  have e4 : lit "[" = ['['] := by decide +kernel
  have shape : rawSignature ins outs = lit "[" ++ ' ' :: (concatAll ins ++
      (['\n', ']', nul, '@', '['] ++ (concatAll outs ++ ['\n', ']', nul]))) := by
    rw [rawSignature, e1, e2, e3]; simp
  have hmid : quoteWords (['\n', ']', nul, '@', '['] ++ (concatAll outs ++ ['\n', ']', nul])) =
      ['\n', ']', nul, '@', '['] ++ (sepBy (lit " , ") (outs.map fun x => objectText x.2 x.1) ++
        ['\n', ']', nul]) := by
    rw [quoteWords_word, quoteWords_all outs ho' _ rfl]
    · have : quoteWords ['\n', ']', nul] = ['\n', ']', nul] := by decide +kernel
      rw [this]
    · decide +kernel
    · decide +kernel
    · cases outs with
      | nil => exact .inr rfl
      | cons x xs =>
        refine .inl ?_
        have hob : ∃ r, concatTypeString x.2 x.1 = ' ' :: r := by
          have e1 : lit "   { \"type\" : " = ' ' :: lit "  { \"type\" : " := by decide +kernel
          have e2 : lit "   {\"seq\" : " = ' ' :: lit "  {\"seq\" : " := by decide +kernel
          cases x.1 with
          | tensor e d =>
            rw [concatTypeString, e1]
            simp only [List.append_assoc, List.cons_append]
            exact ⟨_, rfl⟩
          | strings d =>
            rw [concatTypeString, e1]
            simp only [List.append_assoc, List.cons_append]
            exact ⟨_, rfl⟩
          | seq t =>
            rw [concatTypeString, e2]
            simp only [List.append_assoc, List.cons_append]
            exact ⟨_, rfl⟩
        obtain ⟨r, hr⟩ := hob
        cases xs <;> simp [concatAll, sepBy, hr]
  have hfold := fold_quoteWords (rawSignature ins outs) (by
      intro w hw
      rw [shape, words_append] at hw
      have : words (lit "[") = [['[']] := by decide +kernel
      rw [this] at hw
      simp only [List.cons_append, List.nil_append, List.head?_cons, Option.some.injEq] at hw
      rw [← hw]; decide +kernel) (by
      intro w hw hT
      -- the last word ends with the end of string
      have hlast : (rawSignature ins outs).getLast? = some nul := by
        rw [rawSignature, List.getLast?_append]; rfl
      have hj := join_words (rawSignature ins outs)
      have hmem : nul ∈ w := by
        rw [← hj] at hlast
        clear hj
        generalize words (rawSignature ins outs) = ws at hw hlast
        induction ws with
        | nil => simp at hw
        | cons a ws ih =>
          cases ws with
          | nil =>
            simp only [List.getLast?_singleton, Option.some.injEq] at hw
            subst hw
            exact List.mem_of_getLast? hlast
          | cons b ws =>
            refine ih (by simpa using hw) ?_
            rw [join_cons_cons] at hlast
            cases hjb : join (b :: ws) with
            | nil =>
              rw [hjb] at hlast
              simp [nul] at hlast
            | cons c r =>
              rw [hjb] at hlast
              simpa using hlast
      have : ∀ T ∈ elemTypes, nul ∉ T := by decide +kernel
      exact this w hT hmem)
  rw [getSignature, hfold, shape, quoteWords_space, quoteWords_all ins hi' _ rfl, hmid,
    inputText, outputText, e1, e2]
  have c1 : quoteWords (lit "[") = lit "[" := by decide +kernel
  rw [c1, e4]
  simp

/-! ## Characters that mark ends -/

theorem objectText_chars (c : Char) (hc : c = '@' ∨ c = nul) (name : Str) (hname : c ∉ name)
    (t : Ty) (ht : t.Known) : c ∉ objectText name t := by
  have hel : ∀ T ∈ elemTypes, '@' ∉ T ∧ nul ∉ T := by decide +kernel
  have htensor : ∀ (ty : Str) (dims : List Int), c ∉ ty → c ∉ tensorText ty dims name := by
    intro ty dims hty h
    have h := tensorText_shape ty dims name [] ▸ (by simpa using h :
      c ∈ tensorText ty dims name ++ [])
    simp only [List.mem_append, List.mem_cons, jsonString, List.not_mem_nil, or_false] at h
    have hd : c ∉ dimsText dims := by
      intro h'
      have := dimsText_chars dims c h'
      rcases hc with rfl | rfl
      · exact absurd this (by decide +kernel)
      · exact absurd this (by decide +kernel)
    have k1 : c ∉ lit "   { \"type\" :" ∧ c ∉ lit ", \"dims\" :" ∧
        c ∉ lit ", \"name\" :" ∧ c ∉ lit "}\n" ∧ c ≠ ' ' ∧ c ≠ '"' := by
      rcases hc with rfl | rfl <;> decide +kernel
    obtain ⟨k1, k2, k3, k4, k5, k6⟩ := k1
    simp only [k1, k2, k3, k4, k5, k6, hd, hty, hname, or_false] at h
  induction t with
  | tensor elem dims =>
    apply htensor
    have : c ∉ elem := by
      rcases hc with rfl | rfl
      · exact (hel elem ht).1
      · exact (hel elem ht).2
    have k6 : c ≠ '"' := by rcases hc with rfl | rfl <;> decide
    simp [jsonString, this, k6]
  | strings dims =>
    apply htensor
    rcases hc with rfl | rfl <;> decide +kernel
  | seq t ih =>
    have k : c ∉ lit "   {\"seq\" : " ∧ c ∉ lit " }\n" := by
      rcases hc with rfl | rfl <;> decide +kernel
    simp only [objectText, List.mem_append, k.1, k.2, ih ht, or_false, not_false_eq_true]

theorem objects_chars (c : Char) (hc : c = '@' ∨ c = nul) (xs : List (Ty × Str))
    (hx : ∀ x ∈ xs, x.1.Known ∧ PlainName x.2) :
    c ∉ sepBy (lit " , ") (xs.map fun x => objectText x.2 x.1) := by
  intro h
  refine sepBy_chars (· ≠ c) _ ?_ _ ?_ c h rfl
  · rcases hc with rfl | rfl <;> decide +kernel
  · intro s hs d hd hdc
    obtain ⟨x, hxm, rfl⟩ := List.mem_map.mp hs
    subst hdc
    have hn : d ∉ x.2 := by
      rcases hc with rfl | rfl
      · exact (hx x hxm).2.1
      · exact (hx x hxm).2.2.1
    exact objectText_chars d hc x.2 hn x.1 (hx x hxm).1 hd

theorem inputText_chars (c : Char) (hc : c = '@' ∨ c = nul) (xs : List (Ty × Str))
    (hx : ∀ x ∈ xs, x.1.Known ∧ PlainName x.2) : c ∉ inputText xs := by
  have k : c ∉ lit "[ " ∧ c ∉ lit "\n]" := by
    rcases hc with rfl | rfl <;> decide +kernel
  simp only [inputText, List.mem_append, k.1, k.2, objects_chars c hc xs hx, or_false,
    not_false_eq_true]

theorem outputText_chars (c : Char) (hc : c = '@' ∨ c = nul) (xs : List (Ty × Str))
    (hx : ∀ x ∈ xs, x.1.Known ∧ PlainName x.2) : c ∉ outputText xs := by
  have k : c ∉ lit "[" ∧ c ∉ lit "\n]" := by
    rcases hc with rfl | rfl <;> decide +kernel
  simp only [outputText, List.mem_append, k.1, k.2, objects_chars c hc xs hx, or_false,
    not_false_eq_true]

theorem takeWhile_until (c : Char) (a b : Str) (ha : c ∉ a) :
    (a ++ c :: b).takeWhile (· ≠ c) = a := by
  induction a with
  | nil => simp
  | cons x a ih =>
    have hx : x ≠ c := fun e => ha (by simp [e])
    simp only [List.cons_append, List.takeWhile, hx, ne_eq, not_false_eq_true, decide_true]
    rw [ih (fun h => ha (by simp [h]))]

theorem dropWhile_until (c : Char) (a b : Str) (ha : c ∉ a) :
    (a ++ c :: b).dropWhile (· ≠ c) = c :: b := by
  induction a with
  | nil => simp
  | cons x a ih =>
    have hx : x ≠ c := fun e => ha (by simp [e])
    simp only [List.cons_append, List.dropWhile, hx, ne_eq, not_false_eq_true, decide_true]
    exact ih (fun h => ha (by simp [h]))

theorem cString_eq (a : Str) (ha : nul ∉ a) : cString (a ++ [nul]) = some a := by
  unfold cString
  rw [if_pos (by simp), takeWhile_until nul a [] ha]

theorem record_eq (n : Str) (e : Entry) (he : e.Plain) :
    record n (getSignature e.inputs e.outputs) =
      ⟨n ++ [nul], inputText e.inputs ++ [nul], outputText e.outputs ++ [nul]⟩ := by
  obtain ⟨_, hi, ho⟩ := he
  have h1 : '@' ∉ inputText e.inputs ++ [nul] := by
    have : '@' ≠ nul := by decide
    simp [inputText_chars '@' (.inl rfl) e.inputs hi, this]
  rw [record, splitAt, getSignature_eq e.inputs e.outputs hi ho, takeWhile_until '@' _ _ h1,
    dropWhile_until '@' _ _ h1]
  rfl

/-! ## Lookup -/

theorem strncmpEq_eq (a b : Str) (ha : nul ∉ a) (hb : nul ∉ b) :
    strncmpEq (b.length + 1) (a ++ [nul]) (b ++ [nul]) = some (decide (a = b)) := by
  induction b generalizing a with
  | nil =>
    cases a with
    | nil => simp [strncmpEq]
    | cons x a =>
      have hx : x ≠ nul := fun e => ha (by simp [e])
      simp [strncmpEq, hx]
  | cons y b ih =>
    have hy : y ≠ nul := fun e => hb (by simp [e])
    cases a with
    | nil => simp [strncmpEq, hy.symm]
    | cons x a =>
      have := ih a (fun h => ha (by simp [h])) (fun h => hb (by simp [h]))
      simp only [List.length_cons, List.cons_append, strncmpEq]
      by_cases hxy : x = y
      · subst hxy
        simp only [ne_eq, not_true_eq_false, if_false, hy, this, List.cons.injEq, true_and]
      · simp [hxy]

theorem lookup_eq (which : Globals → Str) (text : Entry → Str) (name : Str) (hname : nul ∉ name)
    (ns : List (Str × Entry)) (hns : ∀ p ∈ ns, nul ∉ p.1) (g : Str × Entry → Globals)
    (hg : ∀ p ∈ ns, (g p).entry = p.1 ++ [nul] ∧ which (g p) = text p.2) :
    lookup which (name ++ [nul]) (ns.map g) =
      match ns.find? (fun p => p.1 = name) with
      | none => .null
      | some p => .ptr (text p.2) := by
  induction ns with
  | nil => rfl
  | cons p ns ih =>
    obtain ⟨h1, h2⟩ := hg p (by simp)
    have hlen : (g p).entry.length = p.1.length + 1 := by rw [h1]; simp
    simp only [List.map_cons, lookup, hlen]
    rw [h1, strncmpEq_eq name p.1 hname (hns p (by simp))]
    by_cases h : name = p.1
    · simp [h, h2]
    · have h' : ¬ p.1 = name := fun e => h e.symm
      simp only [h, decide_false, List.find?_cons, h']
      exact ih (fun q hq => hns q (by simp [hq])) (fun q hq => hg q (by simp [hq]))

/-- The globals of the entry points. -/
theorem recordAll_eq (pfx : Str) (es : List Entry) :
    recordAll pfx es = (entryNames pfx es).map
      fun p => record p.1 (getSignature p.2.inputs p.2.outputs) := by
  match es with
  | [] => rfl
  | [e] =>
    simp only [recordAll, entryNames]
    by_cases h : pfx = []
    · simp [h]
    · simp [h]
  | e :: f :: r => simp [recordAll, entryNames]

theorem entryNames_nul (pfx : Str) (hp : nul ∉ pfx) (es : List Entry) (hes : ∀ e ∈ es, e.Plain) :
    ∀ p ∈ entryNames pfx es, nul ∉ p.1 ∧ p.2.Plain := by
  have k1 : nul ∉ lit "run_main_graph" := by decide +kernel
  have k2 : nul ∉ lit "run_" := by decide +kernel
  match es with
  | [] => simp [entryNames]
  | [e] =>
    have he := hes e (by simp)
    intro p h
    simp only [entryNames] at h
    split at h
    · simp only [List.mem_singleton] at h
      subst h; exact ⟨k1, he⟩
    · simp only [List.mem_cons, List.not_mem_nil, or_false] at h
      rcases h with rfl | rfl
      · exact ⟨k1, he⟩
      · exact ⟨by simp only [List.mem_append, k1, hp, or_false, not_false_eq_true], he⟩
  | e :: f :: r =>
    intro p h
    obtain ⟨x, hx, rfl⟩ := List.mem_map.mp h
    exact ⟨by simp only [List.mem_append, k2, (hes x hx).1, or_false, not_false_eq_true],
      hes x hx⟩

end Verif.Signature
