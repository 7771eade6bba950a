import Verif.Builder.ShapeOptSpec
import Mathlib.Tactic.Linarith

/-!
Reading back the text of the options for the inputs of a model.
-/

namespace Verif.Builder

theorem getlinesAux_append (sep : Char) : ∀ (t rest cur : List Char), sep ∉ t →
    getlinesAux sep (t ++ sep :: rest) cur = (cur ++ t) :: getlinesAux sep rest []
  | [], rest, cur, _ => by simp [getlinesAux]
  | c :: t, rest, cur, h => by
    have hc : c ≠ sep := fun e => h (by simp [e])
    rw [List.cons_append, getlinesAux, if_neg hc, getlinesAux_append sep t rest _ (fun h' => h (List.mem_cons_of_mem _ h'))]
    simp

theorem getlinesAux_end (sep : Char) : ∀ (t cur : List Char), sep ∉ t → t ≠ [] → getlinesAux sep t cur = [cur ++ t]
  | [], _, _, h => absurd rfl h
  | [c], cur, h, _ => by
    have hc : c ≠ sep := fun e => h (by simp [e])
    simp [getlinesAux, hc]
  | c :: d :: t, cur, h, _ => by
    have hc : c ≠ sep := fun e => h (by simp [e])
    rw [getlinesAux, if_neg hc, getlinesAux_end sep (d :: t) _ (fun h' => h (List.mem_cons_of_mem _ h')) (by simp)]
    simp

theorem getlines_join (sep : Char) : ∀ l : List (List Char), (∀ t ∈ l, sep ∉ t ∧ t ≠ []) → getlines sep (joinWith sep l) = l
  | [], _ => rfl
  | [s], h => by
    have := h s (by simp)
    rw [joinWith, getlines, getlinesAux_end sep s [] this.1 this.2]
    simp
  | s :: t :: rest, h => by
    have hs := h s (by simp)
    have ih := getlines_join sep (t :: rest) fun u hu => h u (List.mem_cons_of_mem _ hu)
    unfold getlines at ih ⊢
    rw [joinWith, getlinesAux_append sep s _ [] hs.1, ih]
    simp

theorem splitAll_append (sep : Char) : ∀ (t rest cur : List Char), sep ∉ t →
    splitAll sep (t ++ sep :: rest) cur = (cur ++ t) :: splitAll sep rest []
  | [], rest, cur, _ => by simp [splitAll]
  | c :: t, rest, cur, h => by
    have hc : c ≠ sep := fun e => h (by simp [e])
    rw [List.cons_append, splitAll, if_neg hc, splitAll_append sep t rest _ (fun h' => h (List.mem_cons_of_mem _ h'))]
    simp

theorem splitAll_end (sep : Char) : ∀ (t cur : List Char), sep ∉ t → splitAll sep t cur = [cur ++ t]
  | [], cur, _ => by simp [splitAll]
  | c :: t, cur, h => by
    have hc : c ≠ sep := fun e => h (by simp [e])
    rw [splitAll, if_neg hc, splitAll_end sep t _ (fun h' => h (List.mem_cons_of_mem _ h'))]
    simp

theorem splitAll_join (sep : Char) : ∀ l : List (List Char), l ≠ [] → (∀ t ∈ l, sep ∉ t) → splitAll sep (joinWith sep l) [] = l
  | [], h, _ => absurd rfl h
  | [s], _, h => by
    rw [joinWith, splitAll_end sep s [] (h s (by simp))]
    simp
  | s :: t :: rest, _, h => by
    have ih := splitAll_join sep (t :: rest) (by simp) fun u hu => h u (List.mem_cons_of_mem _ hu)
    rw [joinWith, splitAll_append sep s _ [] (h s (by simp)), ih]
    simp

theorem before_mid (c : Char) (a b : List Char) (h : c ∉ a) : before c (a ++ c :: b) = a := by
  unfold before
  rw [List.takeWhile_append_of_pos (fun x hx => by simp; rintro rfl; exact h hx)]
  simp

theorem dropWhile_mid (c : Char) (a b : List Char) (h : c ∉ a) : (a ++ c :: b).dropWhile (· ≠ c) = c :: b := by
  rw [List.dropWhile_append_of_pos (fun x hx => by simp; rintro rfl; exact h hx)]
  simp

theorem after_mid (c : Char) (a b : List Char) (h : c ∉ a) : after c (a ++ c :: b) = b := by
  unfold after
  rw [if_pos (by simp), dropWhile_mid c a b h, List.tail_cons]

theorem splitSecond_mid (c : Char) (a b : List Char) (h : c ∉ a) : splitSecond c (a ++ c :: b) = b := by
  unfold splitSecond
  rw [dropWhile_mid c a b h, List.tail_cons]

theorem before_none (c : Char) (a : List Char) (h : c ∉ a) : before c a = a := by
  unfold before
  have := List.takeWhile_append_of_pos (p := fun x : Char => decide (x ≠ c)) (l₁ := a) (l₂ := []) (fun x hx => by simp; rintro rfl; exact h hx)
  simpa using this

theorem after_none (c : Char) (a : List Char) (h : c ∉ a) : after c a = a := if_neg h

/-! ### Numbers -/

theorem num_ne (n : ℕ) : num n ≠ [] := Nat.toDigits_ne_nil

theorem num_digit (n : ℕ) (c : Char) (h : c ∈ num n) : c.isDigit = true := Nat.isDigit_of_mem_toDigits (by decide) (by decide) h

theorem num_not (n : ℕ) (c : Char) (hc : c.isDigit = false) : c ∉ num n := fun h => by simp [num_digit n c h] at hc

theorem digitsVal_num (n : ℕ) : digitsVal (num n) = n := by
  have := Nat.ofDigitChars_ten_toDigits (n := n)
  rw [Nat.ofDigitChars_eq_foldl] at this
  exact this

theorem isDigit_range (c : Char) (h : c.isDigit = true) : 48 ≤ c.toNat ∧ c.toNat ≤ 57 := by
  unfold Char.isDigit at h
  simp only [Bool.and_eq_true, decide_eq_true_eq] at h
  obtain ⟨h1, h2⟩ := h
  have h1' : (48 : UInt32).toNat ≤ c.val.toNat := h1
  have h2' : c.val.toNat ≤ (57 : UInt32).toNat := h2
  exact ⟨h1', h2'⟩

theorem isSpace_digit (c : Char) (h : c.isDigit = true) : isSpace c = false := by
  have := isDigit_range c h
  unfold isSpace
  simp only [decide_eq_false_iff_not]
  omega

theorem stoi_num_append (n : ℕ) (hn : n < 2147483648) (rest : List Char) (hr : ∀ c ∈ rest.head?, c.isDigit = false) :
    stoi (num n ++ rest) = some (n : ℤ) := by
  obtain ⟨c, cs, e⟩ := List.exists_cons_of_ne_nil (num_ne n)
  have hc : c.isDigit = true := num_digit n c (by rw [e]; simp)
  have hd : (num n ++ rest).dropWhile isSpace = num n ++ rest := by
    rw [e, List.cons_append, List.dropWhile_cons_of_neg (by rw [isSpace_digit c hc]; simp)]
  have hh : (num n ++ rest).head? = some c := by rw [e]; rfl
  have hm : c ≠ '-' := by rintro rfl; simp at hc
  have hp : c ≠ '+' := by rintro rfl; simp at hc
  have ht : (num n ++ rest).takeWhile Char.isDigit = num n := by
    rw [List.takeWhile_append_of_pos (fun x hx => num_digit n x hx)]
    cases rest with
    | nil => simp
    | cons r rs =>
      have := hr r rfl
      rw [List.takeWhile_cons_of_neg (by simp [this])]
      simp
  unfold stoi
  simp only [hd, hh, Option.some.injEq, hm, hp, or_self, if_false, ht, num_ne, digitsVal_num]
  rw [if_pos (by omega)]

theorem stoi_num (n : ℕ) (hn : n < 2147483648) : stoi (num n) = some (n : ℤ) := by
  have := stoi_num_append n hn [] (by simp)
  rwa [List.append_nil] at this

theorem stoi_all : stoi ['-', '1'] = some (-1) := by decide +kernel

/-- The number an index is written with. -/
def indexVal : Option ℕ → ℤ
  | none => -1
  | some k => k

theorem indexVal_inj (a b : Option ℕ) : indexVal a = indexVal b ↔ a = b := by
  cases a <;> cases b <;> simp [indexVal]

theorem stoi_index (i : Option ℕ) (h : ∀ k, i = some k → k < 2147483648) : stoi (indexText i) = some (indexVal i) := by
  cases i with
  | none => exact stoi_all
  | some k => exact stoi_num k (h k rfl)

theorem indexText_ne (i : Option ℕ) : indexText i ≠ [] := by
  cases i with
  | none => simp [indexText]
  | some k => exact num_ne k

theorem indexText_not (i : Option ℕ) (c : Char) (hc : c.isDigit = false) (hm : c ≠ '-') : c ∉ indexText i := by
  cases i with
  | none =>
    intro h
    simp only [indexText, List.mem_cons, List.not_mem_nil, or_false] at h
    rcases h with rfl | rfl
    · exact hm rfl
    · simp at hc
  | some k => exact num_not k c hc

theorem dimText_eq (d : Option ℕ) : dimText d = indexText d := by cases d <;> rfl

/-! ### Maps -/

variable {β : Type}

theorem lookupKey_nil (i : ℤ) : lookupKey ([] : List (ℤ × β)) i = none := rfl

theorem lookupKey_append (m : List (ℤ × β)) (j : ℤ) (b : β) (i : ℤ) :
    lookupKey (m ++ [(j, b)]) i = (lookupKey m i).or (if j = i then some b else none) := by
  unfold lookupKey
  rw [List.find?_append]
  cases hf : m.find? fun p => p.1 = i with
  | some v => simp
  | none =>
    by_cases h : j = i
    · simp [List.find?, h]
    · simp [List.find?, h]

theorem lookupKey_insertNew (m : List (ℤ × β)) (j : ℤ) (b : β) (i : ℤ) :
    lookupKey (insertNew m j b) i = (lookupKey m i).or (if j = i then some b else none) := by
  unfold insertNew
  split
  · rename_i h
    by_cases e : j = i
    · subst e
      obtain ⟨v, hv⟩ := Option.isSome_iff_exists.1 h
      simp [hv]
    · simp [e]
  · exact lookupKey_append m j b i

theorem lookupKey_assign (m : List (ℤ × β)) (j : ℤ) (b : β) (i : ℤ) :
    lookupKey (assignKey m j b) i = if j = i then some b else lookupKey m i := by
  unfold lookupKey assignKey
  by_cases h : j = i
  · simp [h]
  · simp [h]

theorem lookupKey_insertAll (b : β) (i : ℤ) : ∀ (ids : List ℤ) (m : List (ℤ × β)),
    lookupKey (ids.foldl (fun m j => insertNew m j b) m) i = (lookupKey m i).or (if i ∈ ids then some b else none)
  | [], m => by simp
  | j :: ids, m => by
    rw [List.foldl_cons, lookupKey_insertAll b i ids, lookupKey_insertNew]
    by_cases h : j = i
    · subst h
      cases lookupKey m j <;> simp
    · have : i ∈ j :: ids ↔ i ∈ ids := by
        simp only [List.mem_cons, or_iff_right_iff_imp]
        intro e
        exact absurd e.symm h
      simp only [h, if_false, Option.or_none, this]

/-! ### Shapes -/

theorem mapM_text {γ δ : Type} (f : List Char → Option δ) (g : γ → List Char) (v : γ → δ) : ∀ l : List γ, (∀ x ∈ l, f (g x) = some (v x)) →
    (l.map g).mapM f = some (l.map v)
  | [], _ => rfl
  | x :: l, h => by
    rw [List.map_cons, List.mapM_cons, h x (by simp), mapM_text f g v l fun y hy => h y (List.mem_cons_of_mem _ hy)]
    rfl

theorem parseDim_text (d : Option ℕ) (h : ∀ k, d = some k → 0 < k ∧ k < 2147483648) : parseDim (dimText d) = some d := by
  unfold parseDim
  rw [dimText_eq, stoi_index d fun k hk => (h k hk).2]
  cases d with
  | none => rfl
  | some k =>
    have := h k rfl
    simp only [indexVal, Option.bind_some]
    rw [if_neg (by omega), if_pos (by omega)]
    simp

theorem parseDims_text (dims : List (Option ℕ)) (h : ∀ d, some d ∈ dims → 0 < d ∧ d < 2147483648) :
    (getlines 'x' (joinWith 'x' (dims.map dimText))).mapM parseDim = some dims := by
  rw [getlines_join]
  · rw [mapM_text parseDim dimText id dims fun d hd => parseDim_text d fun k hk => h k (hk ▸ hd), List.map_id]
  · intro t ht
    obtain ⟨d, _, rfl⟩ := List.mem_map.1 ht
    rw [dimText_eq]
    exact ⟨indexText_not d 'x' (by decide) (by decide), indexText_ne d⟩

/-- The numbers of the inputs. -/
def Sel.ids : Sel → List ℤ
  | .all => [-1]
  | .one k => idRange k k
  | .range a b => idRange a b

theorem mem_idRange (a b i : ℤ) : i ∈ idRange a b ↔ a ≤ i ∧ i ≤ b := by
  unfold idRange
  simp only [List.mem_map, List.mem_range]
  constructor
  · rintro ⟨k, hk, rfl⟩
    omega
  · rintro ⟨h1, h2⟩
    exact ⟨(i - a).toNat, by omega, by omega⟩

theorem parseIds_text (s : Sel) (h : s.Small) : parseIds s.text = some s.ids := by
  have hm : ∀ n, '-' ∉ num n := fun n => num_not n '-' (by decide)
  cases s with
  | all => decide +kernel
  | one k =>
    simp only [Sel.text, Sel.ids]
    unfold parseIds
    rw [after_none _ _ (hm k), before_none _ _ (hm k), List.count_eq_zero.2 (hm k), stoi_num k h]
    simp [num_ne]
  | range a b =>
    simp only [Sel.text, Sel.ids]
    unfold parseIds
    rw [after_mid _ _ _ (hm a), before_mid _ _ _ (hm a), stoi_num a h.1, stoi_num b h.2, List.count_append, List.count_eq_zero.2 (hm a),
      List.count_cons, List.count_eq_zero.2 (hm b)]
    simp [num_ne]

theorem Sel.text_not (s : Sel) (c : Char) (hc : c.isDigit = false) (hm : c ≠ '-') : c ∉ s.text := by
  cases s with
  | all => exact indexText_not none c hc hm
  | one k => exact num_not k c hc
  | range a b =>
    simp only [Sel.text, List.mem_append, List.mem_cons, not_or]
    exact ⟨num_not a c hc, hm, num_not b c hc⟩

theorem parseEntry_text (e : ShapeEntry) (h : e.Ok) : parseEntry e.text = some (e.sel.ids, e.dims) := by
  unfold parseEntry ShapeEntry.text
  have hc : ':' ∉ e.sel.text := e.sel.text_not ':' (by decide) (by decide)
  rw [after_mid _ _ _ hc, before_mid _ _ _ hc, parseDims_text e.dims h.2, parseIds_text e.sel h.1]
  rfl

theorem joinWith_not (c sep : Char) (h : c ≠ sep) : ∀ l : List (List Char), (∀ t ∈ l, c ∉ t) → c ∉ joinWith sep l
  | [], _ => by simp [joinWith]
  | [s], hl => hl s (by simp)
  | s :: t :: rest, hl => by
    have ih := joinWith_not c sep h (t :: rest) fun u hu => hl u (List.mem_cons_of_mem _ hu)
    rw [joinWith, List.mem_append, List.mem_cons]
    rintro (h' | h' | h')
    · exact hl s (by simp) h'
    · exact h h'
    · exact ih h'

theorem shape_fold (i : ℤ) : ∀ (es : List ShapeEntry) (m : List (ℤ × List (Option ℕ))), (∀ e ∈ es, e.Ok) →
    ∃ m', (es.map ShapeEntry.text).foldlM (fun m s => (parseEntry s).map fun p => p.1.foldl (fun m i => insertNew m i p.2) m) m = some m' ∧
      ∀ i, lookupKey m' i = (lookupKey m i).or ((es.find? fun e => i ∈ e.sel.ids).map (·.dims))
  | [], m, _ => ⟨m, rfl, fun i => by simp⟩
  | e :: es, m, h => by
    rw [List.map_cons, List.foldlM_cons, parseEntry_text e (h e (by simp))]
    obtain ⟨m', hm', hl⟩ := shape_fold i es (e.sel.ids.foldl (fun m i => insertNew m i e.dims) m) fun x hx => h x (List.mem_cons_of_mem _ hx)
    refine ⟨m', hm', fun i => ?_⟩
    rw [hl, lookupKey_insertAll]
    by_cases hi : i ∈ e.sel.ids
    · rw [List.find?_cons_of_pos (by simpa using hi)]
      cases lookupKey m i <;> simp [hi]
    · rw [List.find?_cons_of_neg (by simpa using hi)]
      simp [hi]

theorem parseShape_text (es : List ShapeEntry) (h : ∀ e ∈ es, e.Ok) :
    ∃ m, parseShapeInformation (shapeText es) = some m ∧ ∀ i, lookupKey m i = (es.find? fun e => i ∈ e.sel.ids).map (·.dims) := by
  unfold parseShapeInformation shapeText
  rw [getlines_join]
  · obtain ⟨m, hm, hl⟩ := shape_fold 0 es [] h
    exact ⟨m, hm, fun i => by rw [hl, lookupKey_nil, Option.none_or]⟩
  · intro t ht
    obtain ⟨e, _, rfl⟩ := List.mem_map.1 ht
    constructor
    · unfold ShapeEntry.text
      rw [List.mem_append, List.mem_cons]
      rintro (h' | h' | h')
      · exact e.sel.text_not ',' (by decide) (by decide) h'
      · simp at h'
      · refine joinWith_not ',' 'x' (by decide) _ ?_ h'
        intro t ht
        obtain ⟨d, _, rfl⟩ := List.mem_map.1 ht
        rw [dimText_eq]
        exact indexText_not d ',' (by decide) (by decide)
    · simp [ShapeEntry.text]

theorem mem_ids_nat (s : Sel) (k : ℕ) : (k : ℤ) ∈ s.ids ↔ s.names k = true := by
  cases s with
  | all => simp only [Sel.ids, Sel.names, List.mem_singleton]; simp
  | one j => simp only [Sel.ids, Sel.names, mem_idRange]; simp; omega
  | range a b => simp only [Sel.ids, Sel.names, mem_idRange]; simp

theorem mem_ids_all (s : Sel) : (-1 : ℤ) ∈ s.ids ↔ s.isAll = true := by
  cases s with
  | all => simp [Sel.ids, Sel.isAll]
  | one j => simp only [Sel.ids, Sel.isAll, mem_idRange]; simp; omega
  | range a b => simp only [Sel.ids, Sel.isAll, mem_idRange]; simp; omega

theorem reshapeInfo_chosen (es : List ShapeEntry) (m : List (ℤ × List (Option ℕ)))
    (hl : ∀ i, lookupKey m i = (es.find? fun e => i ∈ e.sel.ids).map (·.dims)) (k : ℕ) (dims : List (Option ℕ)) :
    reshapeInfo m k dims = match chosenShape es k with
      | some user => customShape user dims
      | none => dims := by
  unfold reshapeInfo chosenShape
  rw [hl, hl]
  have e1 : (fun e : ShapeEntry => decide ((k : ℤ) ∈ e.sel.ids)) = fun e => e.sel.names k := by
    funext e
    rw [Bool.eq_iff_iff, decide_eq_true_iff]
    exact mem_ids_nat e.sel k
  have e2 : (fun e : ShapeEntry => decide ((-1 : ℤ) ∈ e.sel.ids)) = fun e => e.sel.isAll := by
    funext e
    rw [Bool.eq_iff_iff, decide_eq_true_iff]
    exact mem_ids_all e.sel
  rw [e1, e2]
  cases es.find? fun e => e.sel.names k with
  | some e => rfl
  | none => cases es.find? fun e => e.sel.isAll <;> rfl

theorem getElem?_customShape (user dims : List (Option ℕ)) (d : ℕ) :
    (customShape user dims)[d]? = (dims[d]?).map fun o => (user[d]?).getD o := by
  unfold customShape
  rw [List.getElem?_map, List.getElem?_zipIdx]
  cases dims[d]? <;> simp

theorem getElem?_forceShape (forced : List ℤ) (dims : List (Option ℕ)) (d : ℕ) :
    (forceShape forced dims)[d]? = (dims[d]?).map fun o => if (-1 : ℤ) ∈ forced ∨ (d : ℤ) ∈ forced then none else o := by
  unfold forceShape
  rw [List.getElem?_map, List.getElem?_zipIdx]
  cases dims[d]? <;> simp

/-! ### Forced dynamic dimensions -/

/-- The numbers of the dimensions. -/
def ForceEntry.vals (e : ForceEntry) : List ℤ := if e.dims = [] then [-1] else e.dims.map indexVal

theorem parseForced_text (e : ForceEntry) (h : e.Ok) : parseForced e.text = some (indexVal e.input, e.vals) := by
  unfold parseForced ForceEntry.text
  have hc : ':' ∉ indexText e.input := indexText_not _ ':' (by decide) (by decide)
  rw [after_mid _ _ _ hc, before_mid _ _ _ hc, getlines_join]
  · rw [mapM_text stoi indexText indexVal e.dims fun d hd => stoi_index d fun k hk => h.2 k (hk ▸ hd), stoi_index _ h.1]
    simp [ForceEntry.vals]
  · intro t ht
    obtain ⟨d, _, rfl⟩ := List.mem_map.1 ht
    exact ⟨indexText_not d ',' (by decide) (by decide), indexText_ne d⟩

theorem force_fold : ∀ (es : List ForceEntry) (m : List (ℤ × List ℤ)), (∀ e ∈ es, e.Ok) →
    ∃ m', (es.map ForceEntry.text).foldlM (fun m s => (parseForced s).map fun p => insertNew m p.1 p.2) m = some m' ∧
      (∀ j, lookupKey m' (indexVal j) = (lookupKey m (indexVal j)).or ((es.find? fun e => e.input = j).map ForceEntry.vals)) ∧
      (m' = [] → m = [] ∧ es = [])
  | [], m, _ => ⟨m, rfl, fun i => by simp, fun h => ⟨h, rfl⟩⟩
  | e :: es, m, h => by
    rw [List.map_cons, List.foldlM_cons, parseForced_text e (h e (by simp))]
    obtain ⟨m', hm', hl, hn⟩ := force_fold es (insertNew m (indexVal e.input) e.vals) fun x hx => h x (List.mem_cons_of_mem _ hx)
    refine ⟨m', hm', fun j => ?_, fun h' => ?_⟩
    · rw [hl, lookupKey_insertNew]
      simp only [indexVal_inj]
      by_cases hi : e.input = j
      · rw [List.find?_cons_of_pos (by simpa using hi)]
        cases lookupKey m (indexVal j) <;> simp [hi]
      · rw [List.find?_cons_of_neg (by simpa using hi)]
        simp [hi]
    · have h1 := (hn h').1
      unfold insertNew at h1
      split at h1
      · rename_i h2
        rw [h1] at h2
        simp [lookupKey] at h2
      · simp at h1

theorem parseForce_text (es : List ForceEntry) (hne : es ≠ []) (h : ∀ e ∈ es, e.Ok) :
    ∃ m, parseForceDynamic (forceText es) = some m ∧
      ∀ j, lookupKey m (indexVal j) = (es.find? fun e => e.input = j).map ForceEntry.vals := by
  unfold parseForceDynamic forceText
  rw [getlines_join]
  · obtain ⟨m, hm, hl, hn⟩ := force_fold es [] h
    rw [hm]
    have hmn : m ≠ [] := fun h' => hne (hn h').2
    refine ⟨m, by simp [hmn], fun j => by rw [hl, lookupKey_nil, Option.none_or]⟩
  · intro t ht
    obtain ⟨e, _, rfl⟩ := List.mem_map.1 ht
    constructor
    · unfold ForceEntry.text
      rw [List.mem_append, List.mem_cons]
      rintro (h' | h' | h')
      · exact indexText_not _ '|' (by decide) (by decide) h'
      · simp at h'
      · refine joinWith_not '|' ',' (by decide) _ ?_ h'
        intro t ht
        obtain ⟨d, _, rfl⟩ := List.mem_map.1 ht
        exact indexText_not d '|' (by decide) (by decide)
    · simp [ForceEntry.text]

theorem vals_forces (e : ForceEntry) (d : ℕ) : ((-1 : ℤ) ∈ e.vals ∨ (d : ℤ) ∈ e.vals) ↔ e.Forces d := by
  unfold ForceEntry.vals ForceEntry.Forces
  by_cases h : e.dims = []
  · simp [h]
  · simp only [h, if_false, false_or, List.mem_map]
    constructor
    · rintro (⟨a, ha, e'⟩ | ⟨a, ha, e'⟩)
      · left
        have : a = none := (indexVal_inj a none).1 e'
        exact this ▸ ha
      · right
        have : a = some d := (indexVal_inj a (some d)).1 e'
        exact this ▸ ha
    · rintro (h' | h')
      · exact Or.inl ⟨none, h', rfl⟩
      · exact Or.inr ⟨some d, h', rfl⟩

/-! ### Names of dimensions -/

/-- Reading a list of names. -/
def nameText (p : ℕ × List Char) : List Char := num p.1 ++ ':' :: p.2

theorem readNames (d : ℕ) : ∀ (l : List (ℕ × List Char)) (m : List (ℤ × List Char)), (∀ p ∈ l, p.1 < 2147483648) →
    ∃ m', (l.map nameText).foldlM readDimParam m = some m' ∧
      ∀ d : ℕ, lookupKey m' d = ((l.reverse.find? fun p => p.1 = d).map (·.2)).or (lookupKey m d)
  | [], m, _ => ⟨m, rfl, fun i => by simp⟩
  | p :: l, m, h => by
    have hc : ':' ∉ num p.1 := num_not _ ':' (by decide)
    have e : readDimParam m (nameText p) = some (assignKey m p.1 p.2) := by
      unfold readDimParam nameText
      rw [before_mid _ _ _ hc, splitSecond_mid _ _ _ hc, stoi_num p.1 (h p (by simp))]
      rfl
    rw [List.map_cons, List.foldlM_cons, e]
    obtain ⟨m', hm', hl⟩ := readNames d l (assignKey m p.1 p.2) fun x hx => h x (List.mem_cons_of_mem _ hx)
    refine ⟨m', hm', fun d => ?_⟩
    rw [hl, lookupKey_assign, List.reverse_cons, List.find?_append]
    cases l.reverse.find? fun p => p.1 = d with
    | some q => simp
    | none =>
      by_cases hd : p.1 = d
      · simp [List.find?, hd]
      · have : ¬ ((p.1 : ℤ) = (d : ℤ)) := by exact_mod_cast hd
        simp [List.find?, hd, this]

theorem getNames (l : List (ℕ × List Char)) (h : ∀ p ∈ l, p.1 < 2147483648 ∧ ',' ∉ p.2) :
    ∃ m, getONNXDimParams (joinWith ',' (l.map nameText)) = some m ∧
      ∀ d : ℕ, lookupKey m d = (l.reverse.find? fun p => p.1 = d).map (·.2) := by
  unfold getONNXDimParams
  by_cases hl : l = []
  · subst hl
    exact ⟨[], by simp [joinWith], fun d => rfl⟩
  · have hne : joinWith ',' (l.map nameText) ≠ [] := by
      obtain ⟨p, l', rfl⟩ := List.exists_cons_of_ne_nil hl
      cases l' with
      | nil => simp [joinWith, nameText]
      | cons q l'' => simp [joinWith, nameText]
    rw [if_neg hne, splitAll_join]
    · obtain ⟨m, hm, hk⟩ := readNames 0 l [] fun p hp => (h p hp).1
      exact ⟨m, hm, fun d => by rw [hk, lookupKey_nil, Option.or_none]⟩
    · simpa using hl
    · intro t ht
      obtain ⟨p, hp, rfl⟩ := List.mem_map.1 ht
      unfold nameText
      rw [List.mem_append, List.mem_cons]
      rintro (h' | h' | h')
      · exact num_not _ ',' (by decide) h'
      · simp at h'
      · exact (h p hp).2 h'

/-- The named dimensions of a type. -/
def namedDims (dims : List (ProtoDim × ℕ)) : List (ℕ × List Char) :=
  dims.filterMap fun p => match p.1 with
    | .param s => some (p.2, s)
    | _ => none

theorem joinWith_snoc (sep : Char) (s : List Char) : ∀ l : List (List Char), joinWith sep (l ++ [s]) = if l = [] then s else joinWith sep l ++ sep :: s
  | [] => rfl
  | [a] => by simp [joinWith]
  | a :: b :: l => by
    have ih := joinWith_snoc sep s (b :: l)
    rw [if_neg (by simp)] at ih ⊢
    rw [List.cons_append, List.cons_append, joinWith, ← List.cons_append, ih, joinWith]
    simp

theorem joinNames_nil (l : List (ℕ × List Char)) : joinWith ',' (l.map nameText) = [] ↔ l = [] := by
  cases l with
  | nil => simp [joinWith]
  | cons p l => cases l <;> simp [joinWith, nameText]

theorem dimParams_fold : ∀ (l : List (ProtoDim × ℕ)) (pre : List (ℕ × List Char)),
    l.foldl addDimParam (joinWith ',' (pre.map nameText)) = joinWith ',' ((pre ++ namedDims l).map nameText)
  | [], pre => by simp [namedDims]
  | (p, k) :: l, pre => by
    rw [List.foldl_cons]
    cases p with
    | param s =>
      have e : addDimParam (joinWith ',' (pre.map nameText)) (.param s, k) = joinWith ',' ((pre ++ [(k, s)]).map nameText) := by
        rw [List.map_append, List.map_singleton, joinWith_snoc]
        have hn : num k = Nat.toDigits 10 k := rfl
        by_cases hp : pre = []
        · subst hp
          simp [addDimParam, joinWith, nameText, hn]
        · have h1 : pre.map nameText ≠ [] := by simpa using hp
          have h2 : joinWith ',' (pre.map nameText) ≠ [] := fun h => hp ((joinNames_nil pre).1 h)
          simp [addDimParam, h2, hp, nameText, hn]
      rw [e, dimParams_fold l]
      simp [namedDims]
    | value v => rw [show addDimParam (joinWith ',' (pre.map nameText)) (.value v, k) = joinWith ',' (pre.map nameText) from rfl, dimParams_fold l]; simp [namedDims]
    | unknown => rw [show addDimParam (joinWith ',' (pre.map nameText)) (.unknown, k) = joinWith ',' (pre.map nameText) from rfl, dimParams_fold l]; simp [namedDims]

theorem dimParams_eq (dims : List ProtoDim) : dimParams dims = joinWith ',' ((namedDims dims.zipIdx).map nameText) := by
  have := dimParams_fold dims.zipIdx []
  simpa [dimParams, joinWith] using this

theorem namedDims_find : ∀ (dims : List ProtoDim) (n d : ℕ),
    ((namedDims (dims.zipIdx n)).find? fun p => p.1 = d).map (·.2) = if d < n then none else modelName dims (d - n)
  | [], n, d => by simp [namedDims, modelName]
  | p :: dims, n, d => by
    rw [List.zipIdx_cons]
    have ih := namedDims_find dims (n + 1) d
    by_cases hd : d = n
    · subst hd
      cases p with
      | param s => simp [namedDims, modelName]
      | value v => rw [show namedDims ((.value v, d) :: dims.zipIdx (d + 1)) = namedDims (dims.zipIdx (d + 1)) from rfl, ih]; simp [modelName]
      | unknown => rw [show namedDims ((.unknown, d) :: dims.zipIdx (d + 1)) = namedDims (dims.zipIdx (d + 1)) from rfl, ih]; simp [modelName]
    · have e : ((namedDims ((p, n) :: dims.zipIdx (n + 1))).find? fun p => p.1 = d) = (namedDims (dims.zipIdx (n + 1))).find? fun p => p.1 = d := by
        cases p with
        | param s =>
          rw [show namedDims ((.param s, n) :: dims.zipIdx (n + 1)) = (n, s) :: namedDims (dims.zipIdx (n + 1)) from rfl,
            List.find?_cons_of_neg (by simpa using fun h => hd h.symm)]
        | value v => rfl
        | unknown => rfl
      rw [e, ih]
      by_cases h1 : d < n
      · rw [if_pos (by omega), if_pos h1]
      · rw [if_neg (by omega), if_neg h1]
        have : d - n = (d - (n + 1)) + 1 := by omega
        rw [this]
        rfl

theorem namedDims_keys (dims : List ProtoDim) : ∀ n, ((namedDims (dims.zipIdx n)).map (·.1)).Pairwise (· < ·) ∧ ∀ k ∈ (namedDims (dims.zipIdx n)).map (·.1), n ≤ k ∧ k < n + dims.length := by
  induction dims with
  | nil => intro n; simp [namedDims]
  | cons p dims ih =>
    intro n
    obtain ⟨h1, h2⟩ := ih (n + 1)
    rw [List.zipIdx_cons]
    cases p with
    | param s =>
      rw [show namedDims ((.param s, n) :: dims.zipIdx (n + 1)) = (n, s) :: namedDims (dims.zipIdx (n + 1)) from rfl, List.map_cons]
      refine ⟨List.pairwise_cons.2 ⟨fun k hk => by have := h2 k hk; dsimp only; omega, h1⟩, fun k hk => ?_⟩
      rcases List.mem_cons.1 hk with rfl | hk
      · simp
      · have := h2 k hk
        simp only [List.length_cons]
        omega
    | value v => exact ⟨h1, fun k hk => by have := h2 k hk; simp only [List.length_cons]; omega⟩
    | unknown => exact ⟨h1, fun k hk => by have := h2 k hk; simp only [List.length_cons]; omega⟩

theorem find?_reverse_keys {γ : Type} (d : ℕ) : ∀ l : List (ℕ × γ), (l.map (·.1)).Pairwise (· < ·) →
    (l.reverse.find? fun p => p.1 = d) = l.find? fun p => p.1 = d
  | [], _ => rfl
  | p :: l, h => by
    rw [List.map_cons, List.pairwise_cons] at h
    rw [List.reverse_cons, List.find?_append, find?_reverse_keys d l h.2]
    by_cases hp : p.1 = d
    · have : (l.find? fun p => p.1 = d) = none := by
        rw [List.find?_eq_none]
        intro q hq
        have := h.1 q.1 (List.mem_map_of_mem hq)
        simp
        omega
      rw [this]
      simp [List.find?, hp]
    · rw [List.find?_cons_of_neg (by simpa using hp)]
      simp [List.find?, hp]

theorem namedDims_mem (dims : List ProtoDim) (p : ℕ × List Char) (n : ℕ) (h : p ∈ namedDims (dims.zipIdx n)) : ProtoDim.param p.2 ∈ dims := by
  unfold namedDims at h
  obtain ⟨q, hq, e⟩ := List.mem_filterMap.1 h
  have hm := List.fst_mem_of_mem_zipIdx hq
  cases hq1 : q.1 with
  | param s =>
    rw [hq1] at e hm
    simp only [Option.some.injEq] at e
    subst e
    exact hm
  | value v => rw [hq1] at e; simp at e
  | unknown => rw [hq1] at e; simp at e

/-- The names of a model are read back. -/
theorem modelNames_read (dims : List ProtoDim) (hlen : dims.length ≤ 2147483648) (hc : ∀ s, ProtoDim.param s ∈ dims → ',' ∉ s) :
    ∃ m, getONNXDimParams (dimParams dims) = some m ∧ ∀ d : ℕ, lookupKey m d = modelName dims d := by
  rw [dimParams_eq]
  obtain ⟨h1, h2⟩ := namedDims_keys dims 0
  obtain ⟨m, hm, hl⟩ := getNames (namedDims dims.zipIdx) fun p hp =>
    ⟨by have := (h2 p.1 (List.mem_map_of_mem hp)).2; omega, hc _ (namedDims_mem dims p 0 hp)⟩
  refine ⟨m, hm, fun d => ?_⟩
  rw [hl, find?_reverse_keys d _ h1]
  have := namedDims_find dims 0 d
  simpa using this

/-! ### Names from the option -/

theorem map_eq_text (p : ℕ × List Char) (h : '=' ∉ p.2) :
    (num p.1 ++ '=' :: p.2).map (fun c => if c = '=' then ':' else c) = nameText p := by
  have h1 : ∀ l : List Char, '=' ∉ l → l.map (fun c => if c = '=' then ':' else c) = l := by
    intro l hl
    conv_rhs => rw [← List.map_id l]
    refine List.map_congr_left fun c hc => ?_
    rw [if_neg (by rintro rfl; exact hl hc)]
    rfl
  rw [List.map_append, List.map_cons, h1 _ (num_not _ '=' (by decide)), h1 _ h]
  rfl

theorem map_join (f : Char → Char) (sep : Char) (h : f sep = sep) : ∀ l : List (List Char), (joinWith sep l).map f = joinWith sep (l.map (List.map f))
  | [] => rfl
  | [s] => rfl
  | s :: t :: rest => by
    have ih := map_join f sep h (t :: rest)
    rw [joinWith, List.map_append, List.map_cons, ih, h]
    rfl

/-- The names of an entry as they are kept. -/
def ParamEntry.kept (e : ParamEntry) : List Char := joinWith ',' (e.names.map nameText)

theorem parseParamEntry_text (e : ParamEntry) (h : e.Ok) (m : List (ℤ × List Char) × List Char) :
    parseDimParamsEntry m e.text = some (match e.input with
      | none => (m.1, e.kept)
      | some k => (assignKey m.1 k e.kept, m.2)) := by
  unfold parseDimParamsEntry ParamEntry.text
  have hc : ':' ∉ indexText e.input := indexText_not _ ':' (by decide) (by decide)
  have hk : (joinWith ',' (e.names.map fun p => num p.1 ++ '=' :: p.2)).map (fun c => if c = '=' then ':' else c) = e.kept := by
    rw [map_join _ ',' (by decide)]
    unfold ParamEntry.kept
    rw [List.map_map]
    congr 1
    exact List.map_congr_left fun p hp => map_eq_text p (h.2 p hp).2.2.2
  have hh : (indexText e.input ++ ':' :: joinWith ',' (e.names.map fun p => num p.1 ++ '=' :: p.2)).head? ≠ some ':' := by
    obtain ⟨c, cs, he⟩ := List.exists_cons_of_ne_nil (indexText_ne e.input)
    rw [he]
    rintro h'
    simp only [List.cons_append, List.head?_cons, Option.some.injEq] at h'
    subst h'
    exact hc (by rw [he]; simp)
  rw [if_neg hh, after_mid _ _ _ hc, before_mid _ _ _ hc, stoi_index _ h.1]
  simp only [Option.map_some, hk]
  cases e.input with
  | none => simp [indexVal]
  | some k =>
    have : ¬ ((k : ℤ) < 0) := by omega
    simp [indexVal, this]

theorem param_fold : ∀ (es : List ParamEntry) (m : List (ℤ × List Char) × List Char), (∀ e ∈ es, e.Ok) →
    ∃ m', (es.map ParamEntry.text).foldlM parseDimParamsEntry m = some m' ∧
      (∀ k : ℕ, lookupKey m'.1 k = ((es.reverse.find? fun e => e.input = some k).map ParamEntry.kept).or (lookupKey m.1 k)) ∧
      m'.2 = ((es.reverse.find? fun e => e.input = none).map ParamEntry.kept).getD m.2
  | [], m, _ => ⟨m, rfl, fun i => by simp, by simp⟩
  | e :: es, m, h => by
    rw [List.map_cons, List.foldlM_cons, parseParamEntry_text e (h e (by simp))]
    obtain ⟨m', hm', hl, hn⟩ := param_fold es (match e.input with
      | none => (m.1, e.kept)
      | some k => (assignKey m.1 k e.kept, m.2)) fun x hx => h x (List.mem_cons_of_mem _ hx)
    refine ⟨m', hm', fun k => ?_, ?_⟩
    · rw [hl, List.reverse_cons, List.find?_append]
      cases hf : es.reverse.find? fun e => e.input = some k with
      | some q => simp
      | none =>
        cases hi : e.input with
        | none => simp [List.find?, hi]
        | some j =>
          by_cases hj : j = k
          · subst hj
            simp [List.find?, hi, lookupKey_assign]
          · simp [List.find?, hi, lookupKey_assign, hj]
    · rw [hn, List.reverse_cons, List.find?_append]
      cases hf : es.reverse.find? fun e => e.input = none with
      | some q => simp
      | none =>
        cases hi : e.input with
        | none => simp [List.find?, hi]
        | some j => simp [List.find?, hi]

theorem parseParams_text (es : List ParamEntry) (h : ∀ e ∈ es, e.Ok) :
    ∃ m, parseDimParams (paramText es) = some m ∧
      (∀ k : ℕ, lookupKey m.1 k = (es.reverse.find? fun e => e.input = some k).map ParamEntry.kept) ∧
      m.2 = ((es.reverse.find? fun e => e.input = none).map ParamEntry.kept).getD [] := by
  unfold parseDimParams paramText
  rw [getlines_join]
  · obtain ⟨m, hm, hl, hn⟩ := param_fold es ([], []) h
    exact ⟨m, hm, fun k => by rw [hl, lookupKey_nil, Option.or_none], hn⟩
  · intro t ht
    obtain ⟨e, he, rfl⟩ := List.mem_map.1 ht
    constructor
    · unfold ParamEntry.text
      rw [List.mem_append, List.mem_cons]
      rintro (h' | h' | h')
      · exact indexText_not _ '|' (by decide) (by decide) h'
      · simp at h'
      · refine joinWith_not '|' ',' (by decide) _ ?_ h'
        intro t ht
        obtain ⟨p, hp, rfl⟩ := List.mem_map.1 ht
        rw [List.mem_append, List.mem_cons]
        rintro (h'' | h'' | h'')
        · exact num_not _ '|' (by decide) h''
        · simp at h''
        · exact ((h e he).2 p hp).2.2.1 h''
    · simp [ParamEntry.text]

theorem kept_read (e : ParamEntry) (h : e.Ok) : ∃ m, getONNXDimParams e.kept = some m ∧ ∀ d : ℕ, lookupKey m d = e.name d :=
  getNames e.names fun p hp => ⟨(h.2 p hp).1, (h.2 p hp).2.1⟩

end Verif.Builder
