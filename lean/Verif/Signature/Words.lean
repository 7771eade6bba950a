import Verif.Signature.Model
/-!
# Signatures: replacing words (C110)
-/
namespace Verif.Signature

/-- Words with spaces in between. -/
def join (ws : List Str) : Str := sepBy [' '] ws

@[simp] theorem join_nil : join [] = [] := rfl
@[simp] theorem join_one (w : Str) : join [w] = w := rfl
@[simp] theorem join_cons_cons (w v : Str) (ws : List Str) :
    join (w :: v :: ws) = w ++ ' ' :: join (v :: ws) := by
  simp [join, sepBy]

theorem join_cons_char (c : Char) (w : Str) (ws : List Str) :
    join ((c :: w) :: ws) = c :: join (w :: ws) := by
  cases ws <;> simp

theorem join_prefix (a w : Str) (ws : List Str) : join ((a ++ w) :: ws) = a ++ join (w :: ws) := by
  cases ws <;> simp

theorem words_ne (s : Str) : words s ≠ [] := by
  cases s with
  | nil => simp [words]
  | cons c s =>
    unfold words
    split
    · simp
    · split <;> simp

theorem words_cons (c : Char) (hc : c ≠ ' ') (s : Str) {w : Str} {ws : List Str}
    (h : words s = w :: ws) : words (c :: s) = (c :: w) :: ws := by
  simp [words, hc, h]

theorem join_words (s : Str) : join (words s) = s := by
  induction s with
  | nil => rfl
  | cons c s ih =>
    obtain ⟨w, ws, h⟩ := List.exists_cons_of_ne_nil (words_ne s)
    by_cases hc : c = ' '
    · simp only [words, hc, if_true, h, join_cons_cons]
      rw [← h, ih]; rfl
    · rw [words_cons c hc s h, join_cons_char, ← h, ih]

theorem words_space (s : Str) : ∀ w ∈ words s, ' ' ∉ w := by
  induction s with
  | nil => simp [words]
  | cons c s ih =>
    obtain ⟨w, ws, h⟩ := List.exists_cons_of_ne_nil (words_ne s)
    by_cases hc : c = ' '
    · simp only [words, hc, if_true, List.mem_cons, forall_eq_or_imp]
      exact ⟨by simp, ih⟩
    · rw [words_cons c hc s h]
      rw [h] at ih
      intro v hv
      rcases List.mem_cons.mp hv with rfl | hv
      · have := ih w (by simp)
        simp only [List.mem_cons, not_or]
        exact ⟨fun e => hc e.symm, this⟩
      · exact ih v (by simp [hv])

theorem words_chars (s : Str) : ∀ w ∈ words s, ∀ c ∈ w, c ∈ s := by
  induction s with
  | nil => simp [words]
  | cons c s ih =>
    obtain ⟨w, ws, h⟩ := List.exists_cons_of_ne_nil (words_ne s)
    by_cases hc : c = ' '
    · simp only [words, hc, if_true, List.mem_cons, forall_eq_or_imp]
      exact ⟨by simp, fun v hv x hx => .inr (ih v hv x hx)⟩
    · rw [words_cons c hc s h]
      rw [h] at ih
      intro v hv x hx
      rcases List.mem_cons.mp hv with rfl | hv
      · rcases List.mem_cons.mp hx with rfl | hx
        · simp
        · simp [ih w (by simp) x hx]
      · simp [ih v (by simp [hv]) x hx]

theorem words_append (a b : Str) : words (a ++ ' ' :: b) = words a ++ words b := by
  induction a with
  | nil => simp [words]
  | cons c a ih =>
    obtain ⟨w, ws, h⟩ := List.exists_cons_of_ne_nil (words_ne a)
    by_cases hc : c = ' '
    · simp only [List.cons_append, words, hc, if_true, ih]
    · rw [List.cons_append, words_cons c hc a h]
      rw [h] at ih
      rw [words_cons c hc (a ++ ' ' :: b) (w := w) (ws := ws ++ words b) (by rw [ih]; rfl)]
      rfl

theorem words_word (a : Str) (ha : ' ' ∉ a) : words a = [a] := by
  induction a with
  | nil => rfl
  | cons c a ih =>
    have hc : c ≠ ' ' := fun e => ha (by simp [e])
    rw [words_cons c hc a (ih (fun h => ha (by simp [h])))]

theorem join_append (a b : List Str) (ha : a ≠ []) (hb : b ≠ []) :
    join (a ++ b) = join a ++ ' ' :: join b := by
  induction a with
  | nil => exact absurd rfl ha
  | cons x xs ih =>
    cases xs with
    | nil =>
      obtain ⟨y, ys, rfl⟩ := List.exists_cons_of_ne_nil hb
      simp
    | cons y ys =>
      have := ih (by simp)
      simp only [List.cons_append, join_cons_cons] at this ⊢
      rw [this]; simp

/-! ## The replacement of one word -/

/-- Replace the word `T` by its quotation, except for the last word. -/
def replTs (T : Str) : List Str → List Str
  | [] => []
  | [t] => [t]
  | t :: u :: r => (if t = T then jsonString T else t) :: replTs T (u :: r)

/-- A word followed by a space is a prefix of a text exactly if it is its first word. -/
theorem word_prefix {T t : Str} (hT : ' ' ∉ T) (ht : ' ' ∉ t) (r : Str) :
    (T ++ [' ']) <+: (t ++ ' ' :: r) ↔ T = t := by
  induction T generalizing t with
  | nil =>
    cases t with
    | nil => simp
    | cons c t =>
      have : c ≠ ' ' := fun e => ht (by simp [e])
      simp [List.cons_prefix_cons, this.symm]
  | cons a T ih =>
    cases t with
    | nil =>
      have : a ≠ ' ' := fun e => hT (by simp [e])
      simp [List.cons_prefix_cons, this]
    | cons c t =>
      simp only [List.cons_append, List.cons_prefix_cons, List.cons.injEq]
      rw [ih (fun h => hT (by simp [h])) (fun h => ht (by simp [h]))]

theorem word_not_prefix {T t : Str} (ht : ' ' ∉ t) : ¬ (T ++ [' ']) <+: t := by
  rintro ⟨r, h⟩
  exact ht (by rw [← h]; simp)

theorem replaceAll_join (T : Str) (hT : ' ' ∉ T) (hT0 : T ≠ []) (n : Nat) (t0 : Str)
    (ts : List Str) (h0 : ' ' ∉ t0) (hts : ∀ t ∈ ts, ' ' ∉ t)
    (hn : (join (t0 :: ts)).length ≤ n) :
    replaceAll (' ' :: T ++ [' ']) (' ' :: jsonString T ++ [' ']) n (join (t0 :: ts)) =
      join (t0 :: replTs T ts) := by
  induction n generalizing t0 ts with
  | zero =>
    cases t0 with
    | cons c t => rw [join_cons_char] at hn; simp at hn
    | nil =>
      cases ts with
      | nil => rfl
      | cons u r => simp at hn
  | succ n ih =>
    cases t0 with
    | cons c t =>
      have hc : c ≠ ' ' := fun e => h0 (by simp [e])
      rw [join_cons_char] at hn ⊢
      have hp : (' ' :: T ++ [' ']).isPrefixOf (c :: join (t :: ts)) = false := by
        simp [List.isPrefixOf, hc.symm]
      rw [replaceAll, hp, join_cons_char]
      simp only [Bool.false_eq_true, if_false]
      rw [ih t ts (fun h => h0 (by simp [h])) hts (by simpa using hn)]
    | nil =>
      cases ts with
      | nil => rfl
      | cons t1 r =>
        have ht1 := hts t1 (by simp)
        cases r with
        | nil =>
          simp only [join_cons_cons, List.nil_append, join_one, replTs] at hn ⊢
          have hp : (' ' :: T ++ [' ']).isPrefixOf (' ' :: t1) = false := by
            rw [Bool.eq_false_iff]
            intro h
            rw [List.isPrefixOf_iff_prefix, List.cons_append, List.cons_prefix_cons] at h
            exact word_not_prefix ht1 h.2
          rw [replaceAll, hp]
          simp only [Bool.false_eq_true, if_false]
          have := ih t1 [] ht1 (by simp) (by simpa using hn)
          simp only [join_one, replTs] at this
          rw [this]
        | cons t2 r =>
          rw [join_cons_cons, join_cons_cons, List.nil_append] at hn ⊢
          by_cases hm : t1 = T
          · have hp : (' ' :: T ++ [' ']).isPrefixOf (' ' :: (t1 ++ ' ' :: join (t2 :: r))) =
                true := by
              rw [List.isPrefixOf_iff_prefix, List.cons_append, List.cons_prefix_cons]
              exact ⟨rfl, (word_prefix hT ht1 _).mpr hm.symm⟩
            rw [replaceAll, hp]
            simp only [if_true]
            have e1 : (' ' :: jsonString T ++ [' ']).take (' ' :: T ++ [' ']).length =
                ' ' :: '"' :: T := by
              simp [jsonString]
            have e2 : (' ' :: jsonString T ++ [' ']).drop (' ' :: T ++ [' ']).length =
                ['"', ' '] := by
              simp [jsonString]
            have e3 : (' ' :: (t1 ++ ' ' :: join (t2 :: r))).drop (' ' :: T ++ [' ']).length =
                join (t2 :: r) := by
              rw [hm]; simp
            rw [e1, e2, e3]
            have hlen : T.length ≠ 0 := by simpa using hT0
            have := ih ['"'] (t2 :: r) (by decide) (fun t ht => hts t (by simp [ht])) (by
              rw [hm] at hn
              simp only [List.length_cons, List.length_append, join_cons_cons] at hn ⊢
              simp only [List.length_nil]
              omega)
            rw [join_cons_cons] at this
            have e4 : ['"', ' '] ++ join (t2 :: r) = ['"'] ++ ' ' :: join (t2 :: r) := rfl
            rw [e4, this]
            simp only [replTs, hm, if_true]
            obtain ⟨x, xs, hx⟩ : ∃ x xs, replTs T (t2 :: r) = x :: xs := by
              cases r <;> simp [replTs]
            rw [hx]
            simp [jsonString]
          · have hp : (' ' :: T ++ [' ']).isPrefixOf (' ' :: (t1 ++ ' ' :: join (t2 :: r))) =
                false := by
              rw [Bool.eq_false_iff]
              intro h
              rw [List.isPrefixOf_iff_prefix, List.cons_append, List.cons_prefix_cons] at h
              exact hm ((word_prefix hT ht1 _).mp h.2).symm
            rw [replaceAll, hp]
            simp only [Bool.false_eq_true, if_false]
            have := ih t1 (t2 :: r) ht1 (fun t ht => hts t (by simp [ht])) (by
              simpa using hn)
            rw [join_cons_cons] at this
            rw [this]
            simp only [replTs, hm, if_false]
            rw [join_cons_cons, List.nil_append]

/-! ## The replacement of all words -/

/-- Quote the words that are in the list. -/
def quoteIn (Ts : List Str) (w : Str) : Str := if w ∈ Ts then jsonString w else w

theorem replTs_map (T : Str) (ts : List Str) (hl : ∀ l, ts.getLast? = some l → l ≠ T) :
    replTs T ts = ts.map (quoteIn [T]) := by
  induction ts with
  | nil => rfl
  | cons t r ih =>
    cases r with
    | nil =>
      have : t ≠ T := hl t rfl
      simp [replTs, quoteIn, this]
    | cons u r =>
      have := ih (fun l h => hl l (by simpa using h))
      simp only [replTs, this, List.map_cons, quoteIn, List.mem_singleton]
      congr 1
      by_cases h : t = T <;> simp [h]

theorem quoteIn_quoteIn (Ts : List Str) (T : Str) (hT : ∀ w, jsonString w ≠ T) (w : Str) :
    quoteIn [T] (quoteIn Ts w) = quoteIn (T :: Ts) w := by
  unfold quoteIn
  by_cases h : w ∈ Ts
  · simp [h, hT w]
  · simp [h]

theorem foldl_replace (Ts done : List Str)
    (hTs : ∀ T ∈ Ts, ' ' ∉ T ∧ T ≠ [] ∧ ∀ w, jsonString w ≠ T)
    (t0 : Str) (ts : List Str) (h0 : ' ' ∉ t0) (hts : ∀ t ∈ ts, ' ' ∉ t)
    (hl : ∀ l, ts.getLast? = some l → l ∉ Ts ∧ l ∉ done) :
    (Ts.map fun T => ((' ' :: T ++ [' '] : Str), (' ' :: jsonString T ++ [' '] : Str))).foldl
        (fun s p => replaceAll p.1 p.2 s.length s) (join (t0 :: ts.map (quoteIn done))) =
      join (t0 :: ts.map (quoteIn (Ts.reverse ++ done))) := by
  induction Ts generalizing done with
  | nil => rfl
  | cons T Ts ih =>
    obtain ⟨h1, h2, h3⟩ := hTs T (by simp)
    simp only [List.map_cons, List.foldl_cons]
    have hsp : ∀ t ∈ ts.map (quoteIn done), ' ' ∉ t := by
      intro t ht
      obtain ⟨w, hw, rfl⟩ := List.mem_map.mp ht
      unfold quoteIn
      split
      · simp [jsonString, hts w hw]
      · exact hts w hw
    rw [replaceAll_join T h1 h2 _ t0 _ h0 hsp (Nat.le_refl _), replTs_map]
    · rw [List.map_map]
      have : (quoteIn [T] ∘ quoteIn done) = quoteIn (T :: done) :=
        funext fun w => quoteIn_quoteIn done T h3 w
      rw [this, ih (T :: done) (fun T' h => hTs T' (by simp [h]))]
      · simp
      · intro l hlast
        obtain ⟨ha, hb⟩ := hl l hlast
        simp only [List.mem_cons, not_or] at ha ⊢
        exact ⟨ha.2, ha.1, hb⟩
    · intro l hlast
      rw [List.getLast?_map] at hlast
      obtain ⟨w, hw, rfl⟩ := Option.map_eq_some_iff.mp hlast
      obtain ⟨ha, hb⟩ := hl w hw
      unfold quoteIn
      rw [if_neg hb]
      intro e
      exact ha (by simp [e])

/-- Quote the words that are names of element types. -/
def quoteWords (s : Str) : Str := join ((words s).map (quoteIn elemTypes))

theorem typeMap_eq : typeMap = elemTypes.map fun T =>
    ((' ' :: T ++ [' '] : Str), (' ' :: jsonString T ++ [' '] : Str)) := by decide +kernel

theorem elem_facts : ∀ T ∈ elemTypes, ' ' ∉ T ∧ T ≠ [] ∧ T.head? ≠ some '"' := by decide +kernel

theorem fold_quoteWords (s : Str) (hf : ∀ w, (words s).head? = some w → w ∉ elemTypes)
    (hl : ∀ w, (words s).getLast? = some w → w ∉ elemTypes) :
    typeMap.foldl (fun s p => replaceAll p.1 p.2 s.length s) s = quoteWords s := by
  obtain ⟨t0, ts, h⟩ := List.exists_cons_of_ne_nil (words_ne s)
  have hspace := words_space s
  rw [h] at hspace
  have h0 : t0 ∉ elemTypes := hf t0 (by rw [h]; rfl)
  have key := foldl_replace elemTypes [] (fun T hT => by
      obtain ⟨a, b, c⟩ := elem_facts T hT
      exact ⟨a, b, fun w e => c (by rw [← e]; rfl)⟩) t0 ts (hspace t0 (by simp))
      (fun t ht => hspace t (by simp [ht])) (fun l hlast => ⟨hl l (by
        rw [h]
        cases ts with
        | nil => simp at hlast
        | cons u r => simpa using hlast), by simp⟩)
  have hid : ts.map (quoteIn []) = ts := by
    have : quoteIn [] = fun w => w := funext fun w => by simp [quoteIn]
    rw [this]; simp
  have hrev : quoteIn (elemTypes.reverse ++ []) = quoteIn elemTypes :=
    funext fun w => by simp [quoteIn]
  rw [hid, ← h, join_words, hrev] at key
  rw [typeMap_eq, key]
  unfold quoteWords
  rw [h, List.map_cons]
  have : quoteIn elemTypes t0 = t0 := by simp [quoteIn, h0]
  rw [this]

/-! ## Quoting the words of a text put together -/

theorem quoteWords_space (a b : Str) :
    quoteWords (a ++ ' ' :: b) = quoteWords a ++ ' ' :: quoteWords b := by
  unfold quoteWords
  rw [words_append, List.map_append, join_append]
  · simpa using words_ne a
  · simpa using words_ne b

theorem quoteWords_clean (s : Str) (h : ∀ w ∈ words s, w ∉ elemTypes) : quoteWords s = s := by
  unfold quoteWords
  have : (words s).map (quoteIn elemTypes) = (words s).map (fun w => w) :=
    List.map_congr_left fun w hw => by simp [quoteIn, h w hw]
  rw [this, List.map_id', join_words]

theorem elem_fi : ∀ T ∈ elemTypes, 'f' ∈ T ∨ 'i' ∈ T := by decide +kernel

theorem quoteWords_fi (s : Str) (hf : 'f' ∉ s) (hi : 'i' ∉ s) : quoteWords s = s := by
  apply quoteWords_clean
  intro w hw hT
  rcases elem_fi w hT with h | h
  · exact hf (words_chars s w hw 'f' h)
  · exact hi (words_chars s w hw 'i' h)

theorem quoteWords_elem (T : Str) (hT : T ∈ elemTypes) : quoteWords T = jsonString T := by
  unfold quoteWords
  rw [words_word T (elem_facts T hT).1]
  simp [quoteIn, hT]

theorem elem_newline : ∀ T ∈ elemTypes, '\n' ∉ T := by decide +kernel

/-- A word before a space or a newline. -/
theorem quoteWords_word (a s : Str) (ha : ' ' ∉ a) (hT : a ∉ elemTypes)
    (hs : s.head? = some ' ' ∨ s.head? = some '\n') :
    quoteWords (a ++ s) = a ++ quoteWords s := by
  cases s with
  | nil => simp at hs
  | cons c s =>
    rcases hs with h | h
    · simp only [List.head?_cons, Option.some.injEq] at h
      subst h
      have : quoteWords (' ' :: s) = ' ' :: quoteWords s := by
        have := quoteWords_space [] s
        simpa [quoteWords, words, quoteIn, show ([] : Str) ∉ elemTypes by decide +kernel] using this
      rw [quoteWords_space, this]
      congr 1
      apply quoteWords_clean
      rw [words_word a ha]
      simpa using hT
    · simp only [List.head?_cons, Option.some.injEq] at h
      subst h
      obtain ⟨w, ws, hw⟩ := List.exists_cons_of_ne_nil (words_ne s)
      have h1 : words ('\n' :: s) = ('\n' :: w) :: ws := words_cons '\n' (by decide) s hw
      have h2 : words (a ++ '\n' :: s) = (a ++ '\n' :: w) :: ws := by
        clear hT
        induction a with
        | nil => exact h1
        | cons d a ih =>
          have hd : d ≠ ' ' := fun e => ha (by simp [e])
          exact words_cons d hd _ (ih (fun h => ha (by simp [h])))
      have hq : ∀ v : Str, '\n' ∈ v → quoteIn elemTypes v = v := by
        intro v hv
        unfold quoteIn
        rw [if_neg]
        intro hT
        exact elem_newline v hT hv
      unfold quoteWords
      rw [h1, h2, List.map_cons, List.map_cons, hq _ (by simp), hq _ (by simp), join_prefix]

end Verif.Signature
