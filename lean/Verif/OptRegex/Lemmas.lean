import Verif.OptRegex.Spec

/-!
# Options that select operations by name (lemmas)
-/

namespace Verif.OptRegex

/-! ## Words -/

/-- A word ends before `b`. -/
def EndsAt (b : Str) : Prop := b = [] ∨ ∃ c b', b = c :: b' ∧ isSpace c = true

theorem mem_flush (p acc : Str) : p ∈ flush acc ↔ p ≠ [] ∧ p = acc := by
  unfold flush
  by_cases h : acc = []
  · simp only [h, if_true, List.not_mem_nil, false_iff]
    rintro ⟨h1, h2⟩; exact h1 h2
  · simp only [h, if_false, List.mem_singleton]
    constructor
    · rintro rfl; exact ⟨h, rfl⟩
    · exact fun h => h.2

theorem mem_words (p : Str) : ∀ (s acc : Str), (∀ c ∈ acc, isSpace c = false) →
    (p ∈ words s acc ↔ p ≠ [] ∧ (∀ c ∈ p, isSpace c = false) ∧
      ((∃ q b, p = acc ++ q ∧ s = q ++ b ∧ EndsAt b) ∨ ∃ a c b, s = a ++ c :: (p ++ b) ∧ isSpace c = true ∧ EndsAt b))
  | [], acc, hacc => by
    rw [words, mem_flush]
    constructor
    · rintro ⟨h, rfl⟩
      exact ⟨h, hacc, .inl ⟨[], [], by simp, rfl, .inl rfl⟩⟩
    · rintro ⟨h, _, h1 | h1⟩
      · obtain ⟨q, b, rfl, h2, _⟩ := h1
        have : q = [] := (List.append_eq_nil_iff.1 h2.symm).1
        subst this
        exact ⟨h, by simp⟩
      · obtain ⟨a, c, b, h2, _⟩ := h1
        simp at h2
  | x :: s, acc, hacc => by
    rw [words]
    by_cases hx : isSpace x = true
    · rw [if_pos hx, List.mem_append, mem_flush, mem_words p s [] (by simp)]
      constructor
      · rintro (⟨h, rfl⟩ | ⟨h, h1, h2⟩)
        · exact ⟨h, hacc, .inl ⟨[], x :: s, by simp, rfl, .inr ⟨x, s, rfl, hx⟩⟩⟩
        · refine ⟨h, h1, .inr ?_⟩
          rcases h2 with ⟨q, b, h3, h4, h5⟩ | ⟨a, c, b, h3, h4, h5⟩
          · rw [List.nil_append] at h3
            subst h3
            exact ⟨[], x, b, by simp [h4], hx, h5⟩
          · exact ⟨x :: a, c, b, by simp [h3], h4, h5⟩
      · rintro ⟨h, h1, h2⟩
        rcases h2 with ⟨q, b, h3, h4, h5⟩ | ⟨a, c, b, h3, h4, h5⟩
        · cases q with
          | nil => exact .inl ⟨h, by simpa using h3⟩
          | cons y q =>
            simp only [List.cons_append, List.cons.injEq] at h4
            exfalso
            have := h1 y (by rw [h3]; simp)
            rw [← h4.1, hx] at this
            cases this
        · refine .inr ⟨h, h1, ?_⟩
          cases a with
          | nil =>
            simp only [List.nil_append, List.cons.injEq] at h3
            exact .inl ⟨p, b, by simp, h3.2, h5⟩
          | cons y a =>
            simp only [List.cons_append, List.cons.injEq] at h3
            exact .inr ⟨a, c, b, h3.2, h4, h5⟩
    · have hx' : isSpace x = false := by simpa using hx
      rw [if_neg hx, mem_words p s (acc ++ [x]) (by
        intro c hc
        rcases List.mem_append.1 hc with h | h
        · exact hacc c h
        · rw [List.mem_singleton.1 h]; exact hx')]
      refine and_congr_right fun h => and_congr_right fun h1 => ?_
      constructor
      · rintro (⟨q, b, h3, h4, h5⟩ | ⟨a, c, b, h3, h4, h5⟩)
        · exact .inl ⟨x :: q, b, by rw [h3]; simp, by simp [h4], h5⟩
        · exact .inr ⟨x :: a, c, b, by simp [h3], h4, h5⟩
      · rintro (⟨q, b, h3, h4, h5⟩ | ⟨a, c, b, h3, h4, h5⟩)
        · cases q with
          | nil =>
            exfalso
            rw [List.nil_append] at h4
            rcases h5 with h5 | ⟨c, b', h5, h6⟩
            · rw [h5] at h4; cases h4
            · rw [h5] at h4
              rw [(List.cons.inj h4).1, h6] at hx'
              cases hx'
          | cons y q =>
            simp only [List.cons_append, List.cons.injEq] at h4
            exact .inl ⟨q, b, by rw [h3, ← h4.1]; simp, h4.2, h5⟩
        · cases a with
          | nil =>
            simp only [List.nil_append, List.cons.injEq] at h3
            rw [h3.1, h4] at hx'
            cases hx'
          | cons y a =>
            simp only [List.cons_append, List.cons.injEq] at h3
            exact .inr ⟨a, c, b, h3.2, h4, h5⟩

theorem isSpace_comma (c : Char) : isSpace (comma c) = isSep c := by
  unfold comma isSep
  by_cases h : c = ','
  · subst h; decide
  · simp [h]

/-- The words of a string are its patterns. -/
theorem mem_words_isPattern (s p : Str) : p ∈ words (s.map comma) [] ↔ IsPattern s p := by
  rw [mem_words p _ [] (by simp)]
  constructor
  · rintro ⟨h, h1, h2⟩
    have key : ∀ a b : Str, s.map comma = a ++ p ++ b → (a = [] ∨ ∃ a' c, a = a' ++ [c] ∧ isSpace c = true) → EndsAt b →
        IsPattern s p := by
      intro a b hs ha hb
      obtain ⟨l, sb, rfl, hl, rfl⟩ := List.map_eq_append_iff.1 hs
      obtain ⟨sa, sp, rfl, rfl, hp⟩ := List.map_eq_append_iff.1 hl
      have hsp : ∀ c ∈ sp, isSep c = false := by
        intro c hc
        rw [← isSpace_comma]
        exact h1 _ (by rw [← hp]; exact List.mem_map_of_mem hc)
      have hpp : sp = p := by
        rw [← hp]
        conv_lhs => rw [← List.map_id sp]
        apply List.map_congr_left
        intro c hc
        have := hsp c hc
        unfold isSep at this
        unfold comma
        have h3 : c ≠ ',' := by rintro rfl; simp at this
        simp [h3]
      subst hpp
      refine ⟨sa, sb, rfl, h, hsp, ?_, ?_⟩
      · rcases ha with ha | ⟨a', c, ha, hc⟩
        · left; simpa using ha
        · right
          obtain ⟨x, y, rfl, _, hy⟩ := List.map_eq_append_iff.1 ha
          obtain ⟨d, y', rfl, hd, hy'⟩ := List.map_eq_cons_iff.1 hy
          have : y' = [] := by simpa using hy'
          subst this
          exact ⟨x, d, rfl, by rw [← isSpace_comma, hd]; exact hc⟩
      · rcases hb with hb | ⟨c, b', hb, hc⟩
        · left; simpa using hb
        · right
          obtain ⟨d, y', rfl, hd, _⟩ := List.map_eq_cons_iff.1 hb
          exact ⟨d, y', rfl, by rw [← isSpace_comma, hd]; exact hc⟩
    rcases h2 with ⟨q, b, h3, h4, h5⟩ | ⟨a, c, b, h3, h4, h5⟩
    · rw [List.nil_append] at h3
      subst h3
      exact key [] b (by simpa using h4) (.inl rfl) h5
    · exact key (a ++ [c]) b (by rw [h3]; simp) (.inr ⟨a, c, rfl, h4⟩) h5
  · rintro ⟨a, b, rfl, h, h1, ha, hb⟩
    have hp : p.map comma = p := by
      conv_rhs => rw [← List.map_id p]
      apply List.map_congr_left
      intro c hc
      have := h1 c hc
      unfold isSep at this
      unfold comma
      have h3 : c ≠ ',' := by rintro rfl; simp at this
      simp [h3]
    have hb' : EndsAt (b.map comma) := by
      rcases hb with rfl | ⟨c, b', rfl, hc⟩
      · exact .inl rfl
      · exact .inr ⟨comma c, b'.map comma, rfl, by rw [isSpace_comma]; exact hc⟩
    refine ⟨h, ?_, ?_⟩
    · intro c hc
      have := h1 c hc
      unfold isSep at this
      simp at this
      exact this.2
    · rcases ha with rfl | ⟨a', c, rfl, hc⟩
      · exact .inl ⟨p, b.map comma, by simp, by simp [hp], hb'⟩
      · exact .inr ⟨a'.map comma, comma c, b.map comma, by simp [hp], by rw [isSpace_comma]; exact hc, hb'⟩

theorem flush_flatMap (acc : Str) : flush (acc.flatMap subst) = (flush acc).map (List.flatMap subst) := by
  cases acc with
  | nil => simp [flush]
  | cons c s =>
    have : (c :: s).flatMap subst ≠ [] := by
      rw [List.flatMap_cons]
      unfold subst
      split
      · simp
      · split <;> simp
    rw [flush, if_neg this, flush, if_neg (by simp)]
    simp

theorem words_flatMap : ∀ (s acc : Str), words (s.flatMap subst) (acc.flatMap subst) = (words s acc).map (List.flatMap subst)
  | [], acc => by simp [words, flush_flatMap]
  | c :: s, acc => by
    rw [List.flatMap_cons]
    by_cases h1 : c = '.'
    · subst h1
      have e1 : isSpace '.' = false := by decide
      have e2 : isSpace '\\' = false := by decide
      have := words_flatMap s (acc ++ ['.'])
      simp only [List.flatMap_append, List.flatMap_cons, List.flatMap_nil, List.append_nil] at this
      simp only [subst, if_true, List.cons_append, List.nil_append, words, e1, e2, Bool.false_eq_true, if_false]
      rw [← this]
      simp [subst]
    · by_cases h2 : c = '*'
      · subst h2
        have e1 : isSpace '.' = false := by decide
        have e2 : isSpace '*' = false := by decide
        have := words_flatMap s (acc ++ ['*'])
        simp only [List.flatMap_append, List.flatMap_cons, List.flatMap_nil, List.append_nil] at this
        have e3 : subst '*' = ['.', '*'] := by decide
        rw [e3] at this ⊢
        simp only [List.cons_append, List.nil_append, words, e1, e2, Bool.false_eq_true, if_false]
        rw [← this]
        simp
      · have e3 : subst c = [c] := by simp [subst, h1, h2]
        rw [e3]
        simp only [List.cons_append, List.nil_append, words]
        by_cases hc : isSpace c = true
        · rw [if_pos hc, if_pos hc, List.map_append, flush_flatMap]
          have := words_flatMap s []
          simp only [List.flatMap_nil] at this
          rw [this]
        · rw [if_neg hc, if_neg hc]
          have := words_flatMap s (acc ++ [c])
          simp only [List.flatMap_append, List.flatMap_cons, List.flatMap_nil, List.append_nil, e3] at this
          rw [this]

/-! ## Expressions of simple patterns -/

/-- The tokens that a character of a pattern becomes. -/
def tok1 (c : Char) : List Tok := if c = '*' then [.cls .any, .star] else [.cls (.lit c)]

theorem tok1_ne (c : Char) : tok1 c ≠ [] := by unfold tok1; split <;> simp

theorem not_star_head (p : Str) (r : List Tok) : p.flatMap tok1 ≠ .star :: r := by
  cases p with
  | nil => simp
  | cons c p =>
    rw [List.flatMap_cons]
    unfold tok1
    split <;> simp

theorem tokens_subst : ∀ (p : Str), (∀ c ∈ p, c ∈ special → c = '.' ∨ c = '*') → tokens (p.flatMap subst) = some (p.flatMap tok1)
  | [], _ => rfl
  | c :: p, h => by
    have ih := tokens_subst p fun c hc => h c (List.mem_cons_of_mem _ hc)
    rw [List.flatMap_cons, List.flatMap_cons]
    by_cases h1 : c = '.'
    · subst h1
      have e : subst '.' = ['\\', '.'] := by decide
      have e2 : ('.').isAlphanum = false := by decide
      rw [e]
      simp only [List.cons_append, List.nil_append]
      rw [tokens, if_neg (by simp [e2]), ih]
      rfl
    · by_cases h2 : c = '*'
      · subst h2
        have e : subst '*' = ['.', '*'] := by decide
        rw [e]
        simp only [List.cons_append, List.nil_append]
        rw [tokens, tokens, ih]
        rfl
      · have e : subst c = [c] := by simp [subst, h1, h2]
        have hs : c ∉ special := fun hc => by
          rcases h c (by simp) hc with h | h
          · exact h1 h
          · exact h2 h
        have hb : c ≠ '\\' := by rintro rfl; exact hs (by decide)
        rw [e]
        simp only [List.cons_append, List.nil_append]
        rw [tokens, if_neg hs, ih]
        · simp [push, tok1, h2]
        all_goals first | exact fun hc => absurd hc hb | exact fun _ hc => absurd hc hb | (intros; simp_all)

theorem valid_tok1 : ∀ p : Str, Valid (p.flatMap tok1)
  | [] => trivial
  | c :: p => by
    have ih := valid_tok1 p
    rw [List.flatMap_cons]
    by_cases h : c = '*'
    · simp only [tok1, h, if_true, List.cons_append, List.nil_append]
      exact ih
    · have e : tok1 c = [.cls (.lit c)] := by simp [tok1, h]
      rw [e]
      simp only [List.cons_append, List.nil_append]
      generalize hg : List.flatMap tok1 p = r at ih ⊢
      cases r with
      | nil => trivial
      | cons t r =>
        cases t with
        | star => exact absurd hg (not_star_head p r)
        | cls k => exact ih

theorem fit_glob {ts : List Tok} {n : Str} (h : Fit ts n) : ∀ p : Str, ts = p.flatMap tok1 → Glob p n := by
  induction h with
  | nil =>
    intro p hp
    cases p with
    | nil => exact .nil
    | cons c p =>
      rw [List.flatMap_cons] at hp
      exact absurd (List.append_eq_nil_iff.1 hp.symm).1 (tok1_ne c)
  | @one k r c n hr hk _ ih =>
    intro p hp
    cases p with
    | nil => simp at hp
    | cons d p =>
      rw [List.flatMap_cons] at hp
      by_cases hd : d = '*'
      · simp only [tok1, hd, if_true, List.cons_append, List.nil_append, List.cons.injEq] at hp
        exact absurd hp.2 (hr _)
      · simp only [tok1, hd, if_false, List.cons_append, List.nil_append, List.cons.injEq, Tok.cls.injEq] at hp
        obtain ⟨rfl, hp⟩ := hp
        have : c = d := hk
        subst this
        exact .char hd (ih p hp)
  | @stop k r n _ ih =>
    intro p hp
    cases p with
    | nil => simp at hp
    | cons d p =>
      rw [List.flatMap_cons] at hp
      by_cases hd : d = '*'
      · simp only [tok1, hd, if_true, List.cons_append, List.nil_append, List.cons.injEq] at hp
        subst hd
        exact .starEnd (ih p hp.2.2)
      · simp only [tok1, hd, if_false, List.cons_append, List.nil_append, List.cons.injEq] at hp
        exact absurd hp.2.symm (not_star_head p _)
  | @more k r c n _ _ ih =>
    intro p hp
    have hp' := hp
    cases p with
    | nil => simp at hp
    | cons d p =>
      rw [List.flatMap_cons] at hp
      by_cases hd : d = '*'
      · subst hd
        exact .starMore (ih _ hp')
      · simp only [tok1, hd, if_false, List.cons_append, List.nil_append, List.cons.injEq] at hp
        exact absurd hp.2.symm (not_star_head p _)

theorem glob_fit {p n : Str} (h : Glob p n) : OneLine n → Fit (p.flatMap tok1) n := by
  induction h with
  | nil => exact fun _ => .nil
  | @char c p n hc _ ih =>
    intro hn
    rw [List.flatMap_cons]
    simp only [tok1, hc, if_false, List.cons_append, List.nil_append]
    exact .one (not_star_head p) rfl (ih ⟨fun h => hn.1 (List.mem_cons_of_mem _ h), fun h => hn.2 (List.mem_cons_of_mem _ h)⟩)
  | starEnd _ ih =>
    intro hn
    exact .stop (ih hn)
  | @starMore c p n _ ih =>
    intro hn
    refine .more ⟨?_, ?_⟩ (ih ⟨fun h => hn.1 (List.mem_cons_of_mem _ h), fun h => hn.2 (List.mem_cons_of_mem _ h)⟩)
    · rintro rfl; exact hn.1 (by simp)
    · rintro rfl; exact hn.2 (by simp)

/-! ## Searching and the cache -/

theorem search_some (rx : Str → Str → Option Bool) (n : Str) : ∀ es : List Str, (∀ e ∈ es, (rx e n).isSome) →
    ∃ b, search rx n es = some b ∧ (b = true ↔ ∃ e ∈ es, rx e n = some true)
  | [], _ => ⟨false, rfl, by simp⟩
  | e :: es, h => by
    obtain ⟨b, h1, h2⟩ := search_some rx n es fun e he => h e (List.mem_cons_of_mem _ he)
    obtain ⟨v, hv⟩ := Option.isSome_iff_exists.1 (h e (by simp))
    rw [search, hv]
    cases v with
    | true => exact ⟨true, rfl, by simp [hv]⟩
    | false =>
      refine ⟨b, h1, ?_⟩
      rw [h2]
      simp [hv]

/-- What the cache holds. -/
def CacheOk (rx : Str → Str → Option Bool) (o : Opt) : Prop :=
  ∀ n b, find n o.cache = some b → search rx n o.regexes = some b

/-- The answer without a cache. -/
def plain (rx : Str → Str → Option Bool) (o : Opt) (n : Str) : Option Bool :=
  if o.allEnabled then some true else if o.allDisabled then some false else search rx n o.regexes

theorem isEnabled_plain (rx : Str → Str → Option Bool) (o : Opt) (n : Str) (h : CacheOk rx o) :
    (isEnabled rx o n = none ∧ plain rx o n = none) ∨
    ∃ b o', isEnabled rx o n = some (b, o') ∧ plain rx o n = some b ∧ CacheOk rx o' ∧ ∀ m, plain rx o' m = plain rx o m := by
  unfold isEnabled plain
  by_cases h1 : o.allEnabled
  · simp only [h1, if_true]
    exact .inr ⟨true, o, rfl, rfl, h, by simp [h1]⟩
  · by_cases h2 : o.allDisabled
    · simp only [h1, h2, if_true, Bool.false_eq_true, if_false]
      exact .inr ⟨false, o, rfl, rfl, h, by simp [h1, h2]⟩
    · simp only [h1, h2, Bool.false_eq_true, if_false]
      cases hf : find n o.cache with
      | some b => exact .inr ⟨b, o, rfl, h n b hf, h, by simp [h1, h2]⟩
      | none =>
        cases hs : search rx n o.regexes with
        | none => exact .inl ⟨rfl, rfl⟩
        | some b =>
          refine .inr ⟨b, _, rfl, rfl, ?_, by simp [h1, h2]⟩
          intro m c hm
          simp only [find] at hm
          by_cases hnm : n = m
          · rw [if_pos hnm] at hm
            rw [← hnm, hs, hm]
          · rw [if_neg hnm] at hm
            exact h m c hm

theorem answers_plain (rx : Str → Str → Option Bool) : ∀ (ns : List Str) (o : Opt), CacheOk rx o → ∀ bs,
    answers rx o ns = some bs ↔ List.Forall₂ (fun n b => plain rx o n = some b) ns bs
  | [], o, _, bs => by
    rw [answers]
    constructor
    · intro h
      rw [← Option.some.inj h]; exact .nil
    · intro h
      cases h; rfl
  | n :: ns, o, h, bs => by
    rw [answers]
    rcases isEnabled_plain rx o n h with ⟨h1, h2⟩ | ⟨b, o', h1, h2, h3, h4⟩
    · rw [h1]
      constructor
      · intro h; cases h
      · intro h
        cases h with
        | cons ha _ => rw [h2] at ha; cases ha
    · rw [h1]
      simp only
      have ih := answers_plain rx ns o' h3
      have e : (fun n b => plain rx o' n = some b) = (fun n b => plain rx o n = some b) := by
        funext m c; rw [h4]
      rw [e] at ih
      cases hr : answers rx o' ns with
      | none =>
        constructor
        · intro h; cases h
        · intro h
          cases h with
          | cons _ ht => rw [(ih _).2 ht] at hr; cases hr
      | some cs =>
        simp only [Option.some.injEq]
        have hcs := (ih cs).1 hr
        constructor
        · rintro rfl; exact .cons h2 hcs
        · intro h
          cases h with
          | cons ha ht =>
            rw [h2] at ha
            have := (ih _).2 ht
            rw [hr] at this
            rw [Option.some.inj ha, Option.some.inj this]

theorem setRegex_cache {e : Bool} {s : Str} {o : Opt} (h : setRegex e s = some o) (rx : Str → Str → Option Bool) : CacheOk rx o := by
  have : o.cache = [] := by
    revert h
    unfold setRegex
    simp only
    generalize (if s = [] then e else decide ("NONE".toList <:+: s)) = dis
    generalize (if s = [] then !e else decide ("ALL".toList <:+: s)) = en
    intro h
    cases dis <;> cases en <;> simp at h <;> rw [← h]
  intro n b hf
  rw [this] at hf
  cases hf

theorem ask_iff (rx : Str → Str → Option Bool) (e : Bool) (s : Str) (ns : List Str) (bs : List Bool) :
    ask rx e s ns = some bs ↔ ∃ o, setRegex e s = some o ∧ List.Forall₂ (fun n b => plain rx o n = some b) ns bs := by
  unfold ask
  cases h : setRegex e s with
  | none => simp
  | some o =>
    simp only [Option.some.injEq]
    rw [answers_plain rx ns o (setRegex_cache h rx)]
    constructor
    · exact fun h => ⟨o, rfl, h⟩
    · rintro ⟨o', rfl, h⟩; exact h

theorem setRegex_listed (e : Bool) {s : Str} (h : Listed s) : setRegex e s = some ⟨false, false, expressions s, []⟩ := by
  unfold setRegex
  simp only [h.1, if_false, h.2.1, h.2.2, decide_false, Bool.and_self, Bool.false_eq_true, Bool.or_self]

theorem exists_forall₂ {α β : Type} {P : α → β → Prop} : ∀ l : List α, (∀ a ∈ l, ∃ b, P a b) → ∃ m, List.Forall₂ P l m
  | [], _ => ⟨[], .nil⟩
  | a :: l, h => by
    obtain ⟨b, hb⟩ := h a (by simp)
    obtain ⟨m, hm⟩ := exists_forall₂ l fun a ha => h a (List.mem_cons_of_mem _ ha)
    exact ⟨b :: m, .cons hb hm⟩

theorem forall₂_imp {α β : Type} {P Q : α → β → Prop} (h : ∀ a b, P a b → Q a b) {l : List α} {m : List β}
    (hl : List.Forall₂ P l m) : List.Forall₂ Q l m := by
  induction hl with
  | nil => exact .nil
  | cons ha _ ih => exact .cons (h _ _ ha) ih

end Verif.OptRegex
