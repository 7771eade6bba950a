import Verif.Einsum.Syntax

/-!
# Lemmas on signatures
-/

namespace Verif.Einsum.Sig

/-! ### Maps -/

/-- A map with the given entries. -/
def Rep (m l : List (Char × ℕ)) : Prop := (m.map Prod.fst).Nodup ∧ ∀ q, q ∈ m ↔ q ∈ l

theorem lookup_iff {m : List (Char × ℕ)} (h : (m.map Prod.fst).Nodup) {x : Char} {d : ℕ} :
    m.lookup x = some d ↔ (x, d) ∈ m := by
  induction m with
  | nil => simp
  | cons q m ih =>
    obtain ⟨y, e⟩ := q
    rw [List.map_cons, List.nodup_cons] at h
    rw [List.lookup_cons, List.mem_cons]
    by_cases hx : x = y
    · subst hx
      simp only [beq_self_eq_true, Option.some.injEq, Prod.mk.injEq, true_and]
      constructor
      · exact fun h => .inl h.symm
      · rintro (h' | h')
        · exact h'.symm
        · exact absurd (List.mem_map.2 ⟨_, h', rfl⟩) h.1
    · rw [beq_eq_false_iff_ne.2 hx]
      simp only [ih h.2, Prod.mk.injEq, hx, false_and, false_or]

theorem addAll {l : List (Char × ℕ)} : ∀ {m L : List (Char × ℕ)}, Rep m L →
    (∀ m', l.foldlM addDim m = some m' → Rep m' (L ++ l) ∧ (OneExtent L → OneExtent (L ++ l))) ∧
      (OneExtent (L ++ l) → ∃ m', l.foldlM addDim m = some m') := by
  induction l with
  | nil =>
    intro m L h
    refine ⟨fun m' hm => ?_, fun _ => ⟨m, rfl⟩⟩
    obtain rfl := Option.some.inj hm
    rw [List.append_nil]
    exact ⟨h, id⟩
  | cons q l ih =>
    obtain ⟨x, d⟩ := q
    intro m L h
    simp only [List.foldlM_cons, Option.bind_eq_bind]
    rcases hx : m.lookup x with _ | d0
    · have hadd : addDim m (x, d) = some (m ++ [(x, d)]) := by simp [addDim, hx]
      have hnot : ∀ e, (x, e) ∉ m := fun e he => by
        rw [(lookup_iff h.1).2 he] at hx
        cases hx
      have hrep : Rep (m ++ [(x, d)]) (L ++ [(x, d)]) := by
        refine ⟨?_, fun q => by simp [h.2 q]⟩
        rw [List.map_append, List.nodup_append]
        refine ⟨h.1, by simp, ?_⟩
        rintro y hy z hz rfl
        obtain ⟨⟨_, e⟩, he, rfl⟩ := List.mem_map.1 hy
        simp only [List.map_cons, List.map_nil, List.mem_singleton] at hz
        subst hz
        exact hnot e he
      have hone : OneExtent L → OneExtent (L ++ [(x, d)]) := by
        rintro ho ⟨y, a⟩ hy ⟨z, b⟩ hz (rfl : y = z)
        rcases List.mem_append.1 hy with hy | hy <;> rcases List.mem_append.1 hz with hz | hz
        · exact ho _ hy _ hz rfl
        · simp only [List.mem_singleton, Prod.mk.injEq] at hz
          exact absurd ((h.2 _).2 (hz.1 ▸ hy)) (hnot a)
        · simp only [List.mem_singleton, Prod.mk.injEq] at hy
          exact absurd ((h.2 _).2 (hy.1 ▸ hz)) (hnot b)
        · simp only [List.mem_singleton, Prod.mk.injEq] at hy hz
          rw [hy.2, hz.2]
      obtain ⟨i1, i2⟩ := ih hrep
      rw [hadd, Option.bind_some, show L ++ (x, d) :: l = L ++ [(x, d)] ++ l by simp]
      exact ⟨fun m' hm => ⟨(i1 m' hm).1, fun ho => (i1 m' hm).2 (hone ho)⟩, i2⟩
    · have hm0 : (x, d0) ∈ L := (h.2 _).1 ((lookup_iff h.1).1 hx)
      by_cases hd : d0 = d
      · subst hd
        have hadd : addDim m (x, d0) = some m := by simp [addDim, hx]
        have hsub : ∀ q, q ∈ L ++ [(x, d0)] ↔ q ∈ L := fun q => by
          rw [List.mem_append, List.mem_singleton]
          exact ⟨fun h => h.elim id fun h => h ▸ hm0, .inl⟩
        have hrep : Rep m (L ++ [(x, d0)]) := ⟨h.1, fun q => (h.2 q).trans (hsub q).symm⟩
        obtain ⟨i1, i2⟩ := ih hrep
        rw [hadd, Option.bind_some, show L ++ (x, d0) :: l = L ++ [(x, d0)] ++ l by simp]
        refine ⟨fun m' hm => ⟨(i1 m' hm).1, fun ho => (i1 m' hm).2 fun q hq r hr => ?_⟩, i2⟩
        exact ho q ((hsub q).1 hq) r ((hsub r).1 hr)
      · have hadd : addDim m (x, d) = none := by simp [addDim, hx, hd]
        rw [hadd, Option.bind_none]
        refine And.intro (fun m' hm => nomatch hm) fun ho => ?_
        exact absurd (ho (x, d0) (List.mem_append_left _ hm0) (x, d) (by simp) rfl) hd

theorem axisDims_eq (subs : List Char) (shape : List (Option ℕ)) :
    axisDims subs shape = (known (subs, shape)).foldlM addDim [] := rfl

theorem rep_nil : Rep [] [] := ⟨List.nodup_nil, fun _ => Iff.rfl⟩

theorem one_nil : OneExtent [] := fun _ hq => by cases hq

theorem axisDims_sound {subs : List Char} {shape : List (Option ℕ)} {m : List (Char × ℕ)}
    (h : axisDims subs shape = some m) : Rep m (known (subs, shape)) ∧ OneExtent (known (subs, shape)) := by
  obtain ⟨h1, h2⟩ := (addAll rep_nil).1 m h
  exact ⟨h1, h2 one_nil⟩

theorem axisDims_total {subs : List Char} {shape : List (Option ℕ)} (h : OneExtent (known (subs, shape))) :
    ∃ m, axisDims subs shape = some m := (addAll rep_nil).2 h

/-- Entries other than 1. -/
def non1 (l : List (Char × ℕ)) : List (Char × ℕ) := l.filter fun q => q.2 ≠ 1

theorem one_congr {l l' : List (Char × ℕ)} (h : ∀ q, q ∈ l ↔ q ∈ l') (ho : OneExtent l) : OneExtent l' :=
  fun q hq r hr => ho q ((h q).2 hq) r ((h r).2 hr)

theorem mem_non1 {m l L : List (Char × ℕ)} (h : ∀ q, q ∈ m ↔ q ∈ l) (q : Char × ℕ) :
    q ∈ L ++ m.filter (fun q => q.2 ≠ 1) ↔ q ∈ L ++ non1 l := by
  unfold non1
  rw [List.mem_append, List.mem_append, List.mem_filter, List.mem_filter, h q]

theorem merge_sound {b n b' L l : List (Char × ℕ)} (hb : Rep b L) (hn : Rep n l) (h : merge b n = some b') :
    Rep b' (L ++ non1 l) ∧ (OneExtent L → OneExtent (L ++ non1 l)) := by
  obtain ⟨h1, h2⟩ := (addAll hb).1 b' h
  exact ⟨⟨h1.1, fun q => (h1.2 q).trans (mem_non1 hn.2 q)⟩, fun ho => one_congr (mem_non1 hn.2) (h2 ho)⟩

theorem merge_total {b n L l : List (Char × ℕ)} (hb : Rep b L) (hn : Rep n l) (h : OneExtent (L ++ non1 l)) :
    ∃ b', merge b n = some b' :=
  (addAll hb).2 (one_congr (fun q => (mem_non1 hn.2 q).symm) h)

/-! ### Parameters -/

theorem hasEllipsis_iff {p : Param} {t : List Char} (hp : p.Ok) (ht : nosp t = p.text) :
    hasEllipsis t = p.post.isSome := by
  unfold hasEllipsis
  have h1 : '.' ∈ t ↔ '.' ∈ p.text := by rw [← ht, mem_nosp]; simp
  rw [Bool.eq_iff_iff, decide_eq_true_eq, h1]
  unfold Param.text
  unfold Param.Ok Param.letters at hp
  rcases hq : p.post with _ | q
  · simp only [Option.isSome_none, Bool.false_eq_true, iff_false]
    intro h
    exact letter_ne (hp _ (List.mem_append_left _ h)) (by decide) rfl
  · simp

theorem count_dot {l : List Char} (h : ∀ c ∈ l, isLetter c = true) : l.count '.' = 0 :=
  List.count_eq_zero.2 fun hc => letter_ne (h _ hc) (by decide) rfl

theorem length_nosp (t : List Char) : (nosp t).length = t.length - t.count ' ' := by
  induction t with
  | nil => rfl
  | cons c t ih =>
    by_cases h : c = ' '
    · subst h
      rw [List.count_cons_self, List.length_cons, Nat.add_sub_add_right, ← ih]
      rfl
    · rw [nosp_cons h, List.length_cons, ih, List.length_cons, List.count_cons_of_ne h]
      have := List.count_le_length (a := ' ') (l := t)
      omega

theorem countLetters_eq {p : Param} {t : List Char} (hp : p.Ok) (ht : nosp t = p.text) :
    countLetters t = p.letters.length := by
  unfold countLetters
  rw [← length_nosp, ← count_nosp (by decide) t, ht]
  unfold Param.text Param.letters
  unfold Param.Ok Param.letters at hp
  rcases hq : p.post with _ | q
  · rw [hq] at hp
    rw [count_dot fun c hc => hp c (List.mem_append_left _ hc)]
    simp
  · rw [hq] at hp
    simp only [Option.getD_some] at hp ⊢
    rw [List.count_append, count_dot fun c hc => hp c (List.mem_append_left _ hc), List.count_cons_self,
      List.count_cons_self, List.count_cons_self, count_dot fun c hc => hp c (List.mem_append_right _ hc)]
    simp
    omega

theorem subs_length (p : Param) (k : ℕ) :
    (p.subs k).length = p.letters.length + if p.post.isSome then k else 0 := by
  unfold Param.subs Param.letters
  rcases p.post with _ | q
  · simp
  · simp
    omega

theorem splitAt_of {c : Char} {a b : List Char} (h : c ∉ a) : splitAt c (a ++ c :: b) = (a, b) := by
  have h' : ∀ x ∈ a, decide (x ≠ c) = true := fun x hx => by
    rw [decide_eq_true_eq]
    rintro rfl
    exact h hx
  unfold splitAt
  rw [List.takeWhile_append_of_pos h', List.dropWhile_append_of_pos h']
  simp

theorem splitAt_none {c : Char} {a : List Char} (h : c ∉ a) : splitAt c a = (a, []) := by
  have h' : ∀ x ∈ a, decide (x ≠ c) = true := fun x hx => by
    rw [decide_eq_true_eq]
    rintro rfl
    exact h hx
  have := List.takeWhile_append_of_pos h' (l₂ := [])
  have h2 := List.dropWhile_append_of_pos h' (l₂ := [])
  rw [List.append_nil] at this h2
  unfold splitAt
  rw [this, h2]
  simp

theorem dropWhile_nosp {p : Char → Bool} {d : List Char} (h : ∀ c ∈ d, p c = true → c = ' ') :
    nosp (d.dropWhile p) = nosp d := by
  induction d with
  | nil => rfl
  | cons c d ih =>
    by_cases hc : p c = true
    · rw [List.dropWhile_cons_of_pos hc, ih fun x hx => h x (List.mem_cons_of_mem _ hx), h c List.mem_cons_self hc]
      rfl
    · rw [List.dropWhile_cons_of_neg hc]

theorem mapM_some {α β : Type} {f : α → Option β} {g : α → β} {l : List α} (h : ∀ x ∈ l, f x = some (g x)) :
    l.mapM f = some (l.map g) := by
  induction l with
  | nil => rfl
  | cons x l ih =>
    rw [List.mapM_cons, h x List.mem_cons_self, ih fun y hy => h y (List.mem_cons_of_mem _ hy)]
    rfl

theorem extract_eq {p : Param} {t : List Char} {k : ℕ} (hp : p.Ok) (ht : nosp t = p.text)
    (hk : p.post ≠ none → k ≤ 10) : extract t (p.subs k).length = some (p.subs k) := by
  obtain ⟨pre, post⟩ := p
  rcases post with _ | q
  · have hdot : '.' ∉ t := by
      have := hasEllipsis_iff hp ht
      unfold hasEllipsis at this
      simpa using this
    have hpre : letterSubs t = pre := ht
    have hrank : t.length - t.count ' ' = pre.length := by rw [← length_nosp, ht]; rfl
    unfold extract
    rw [splitAt_none hdot]
    simp only [hrank, hpre, Param.subs, if_true]
    simp
  · have h10 := hk (by simp)
    simp only [Param.text] at ht
    obtain ⟨a, r, rfl, ha, hr⟩ := nosp_split_at ht
    have hl1 : ∀ c ∈ pre, isLetter c = true := fun c hc => hp c (List.mem_append_left _ hc)
    have hl2 : ∀ c ∈ q, isLetter c = true := fun c hc => hp c (List.mem_append_right _ hc)
    have hna : '.' ∉ a := fun h => letter_ne (hl1 '.' (ha ▸ mem_nosp.2 ⟨h, by decide⟩)) (by decide) rfl
    obtain ⟨u, r, rfl, hu, hr⟩ := nosp_split_cons hr
    obtain ⟨v, b, rfl, hv, hb⟩ := nosp_split_cons hr
    have hsuf : nosp ((u ++ '.' :: (v ++ '.' :: b)).dropWhile fun c => c == ' ' || c == '.') = q := by
      have hsp : ∀ w : List Char, nosp w = [] → ∀ x ∈ w, (x == ' ' || x == '.') = true := fun w hw x hx => by
        simp [nosp_eq_nil.1 hw x hx]
      rw [List.dropWhile_append_of_pos (hsp u hu), List.dropWhile_cons_of_pos (by decide),
        List.dropWhile_append_of_pos (hsp v hv), List.dropWhile_cons_of_pos (by decide), dropWhile_nosp, hb]
      intro c hc hp
      by_contra hne
      have : c = '.' := by simpa [hne] using hp
      exact letter_ne (hl2 c (hb ▸ mem_nosp.2 ⟨hc, hne⟩)) (show '.' < 'A' by decide) this
    have hprank : a.length - a.count ' ' = pre.length := by rw [← length_nosp, ha]
    have hpl : letterSubs a = pre := ha
    generalize hsx : ((u ++ '.' :: (v ++ '.' :: b)).dropWhile fun c => c == ' ' || c == '.') = sx at hsuf
    have hsrank : sx.length - sx.count ' ' = q.length := by rw [← length_nosp, hsuf]
    have hsl : letterSubs sx = q := hsuf
    have hlen : (Param.subs ⟨pre, some q⟩ k).length = pre.length + k + q.length := by
      simp [Param.subs]
      omega
    unfold extract
    rw [splitAt_of hna]
    simp only [hsx, hprank, hpl, hsrank, hsl, hlen]
    rw [if_neg (by simp), if_neg (by omega), show pre.length + k + q.length - pre.length - q.length = k by omega,
      mapM_some (g := digit)]
    · simp [Param.subs]
      omega
    · intro x hx
      rw [List.mem_range] at hx
      unfold ellipsisSubscript digit
      rw [if_pos (by omega)]

theorem splitAll_none {c : Char} : ∀ {a : List Char}, c ∉ a → splitAll c a = [a]
  | [], _ => rfl
  | x :: a, h => by
    rw [splitAll, if_neg (fun h' : x = c => h (h' ▸ List.mem_cons_self)), splitAll_none fun h' => h (List.mem_cons_of_mem _ h')]

theorem splitAll_of {c : Char} {b : List Char} : ∀ {a : List Char}, c ∉ a → splitAll c (a ++ c :: b) = a :: splitAll c b
  | [], _ => by rw [List.nil_append, splitAll, if_pos rfl]
  | x :: a, h => by
    rw [List.cons_append, splitAll, if_neg (fun h' : x = c => h (h' ▸ List.mem_cons_self)),
      splitAll_of fun h' => h (List.mem_cons_of_mem _ h')]

theorem splitAll_ins {ps : List Param} (hp : ∀ p ∈ ps, p.Ok) (hne : ps ≠ []) {a : List Char} (h : nosp a = insText ps) :
    List.Forall₂ (fun (p : Param) t => nosp t = p.text) ps (splitAll ',' a) := by
  cases ps with
  | nil => exact absurd rfl hne
  | cons p ps =>
    rw [insText_cons] at h
    clear hne
    have hno : ∀ (p : Param) (u : List Char), p.Ok → nosp u = p.text → ',' ∉ u := fun p u hp hu hc =>
      text_notMem hp (by decide) (by decide) (hu ▸ mem_nosp.2 ⟨hc, by decide⟩)
    induction ps generalizing a p with
    | nil =>
      rw [List.flatMap_nil, List.append_nil] at h
      rw [splitAll_none (hno p a (hp p List.mem_cons_self) h)]
      exact .cons h .nil
    | cons q ps ih =>
      rw [List.flatMap_cons, List.cons_append] at h
      obtain ⟨u, v, rfl, hu, hv⟩ := nosp_split_at h
      rw [splitAll_of (hno p u (hp p List.mem_cons_self) hu)]
      exact .cons hu (ih q (fun r hr => hp r (List.mem_cons_of_mem _ hr)) hv)

/-! ### Operands -/

theorem checkEllipsis_iff {p : Param} {t : List Char} (hp : p.Ok) (ht : nosp t = p.text) {er er' : Option ℕ} {r : ℕ} :
    checkEllipsis er t r = some er' ↔
      (p.post = none ∧ r = p.letters.length ∧ er' = er) ∨
      (p.post ≠ none ∧ ∃ k, k ≤ 10 ∧ r = p.letters.length + k ∧ er' = some k ∧ (er = none ∨ er = some k)) := by
  unfold checkEllipsis
  rw [hasEllipsis_iff hp ht, countLetters_eq hp ht]
  rcases hq : p.post with _ | q
  · rw [if_pos (show (none : Option (List Char)).isSome = false from rfl)]
    by_cases hr : r = p.letters.length
    · rw [if_neg (not_not.2 hr)]
      simp [hr, eq_comm]
    · rw [if_pos hr]
      simp [hr]
  · rw [if_neg (by simp)]
    by_cases h1 : r < p.letters.length
    · rw [if_pos h1]
      simp
      intros
      omega
    · rw [if_neg h1]
      by_cases h2 : maxEllipsis < r - p.letters.length
      · rw [if_pos h2]
        unfold maxEllipsis at h2
        simp
        intros
        omega
      · rw [if_neg h2]
        unfold maxEllipsis at h2
        have hr : r = p.letters.length + (r - p.letters.length) := by omega
        rcases er with _ | k
        · simp only [Option.some.injEq]
          constructor
          · rintro rfl
            exact .inr ⟨by simp, _, by omega, hr, rfl, .inl trivial⟩
          · rintro (⟨h, -⟩ | ⟨-, k, -, hk, rfl, -⟩)
            · cases h
            · rw [hk, Nat.add_sub_cancel_left]
        · by_cases h3 : k = r - p.letters.length
          · simp only
            rw [if_neg (not_not.2 h3)]
            constructor
            · intro h
              exact .inr ⟨by simp, k, by omega, by omega, (Option.some.inj h).symm, .inr rfl⟩
            · rintro (⟨h, -⟩ | ⟨-, k', -, hk, rfl, h4 | h4⟩)
              · cases h
              · cases h4
              · rw [h4]
          · simp only
            rw [if_pos h3]
            constructor
            · intro h
              cases h
            · rintro (⟨h, -⟩ | ⟨-, k', -, hk, rfl, h4 | h4⟩)
              · cases h
              · cases h4
              · have := Option.some.inj h4
                omega

/-- What is known after some operands. -/
structure After (st st' : State) (L : List (Char × ℕ)) (ps : List Param) (shapes : List (List (Option ℕ))) (k : ℕ) :
    Prop where
  ranks : List.Forall₂ (fun (p : Param) t => t.length = (p.subs k).length) ps shapes
  le : (∃ p ∈ ps, p.post ≠ none) → k ≤ 10
  start : st.ellipsisRank = none ∨ st.ellipsisRank = some k
  stop : k = st'.ellipsisRank.getD 0
  none : (∀ p ∈ ps, p.post = none) → st'.ellipsisRank = st.ellipsisRank
  ins : st'.ins = st.ins ++ ps.map (·.subs k)
  own : ∀ q ∈ (ps.map (·.subs k)).zip shapes, OneExtent (known q)
  rep : Rep st'.broadcast (L ++ non1 (((ps.map (·.subs k)).zip shapes).flatMap known))
  one : OneExtent L → OneExtent (L ++ non1 (((ps.map (·.subs k)).zip shapes).flatMap known))
  dyn : st'.dynamic = st.dynamic ++ ((ps.map (·.subs k)).zip shapes).flatMap fun q => dynSubs q.1 q.2

theorem subs_none {p : Param} (h : p.post = none) (k : ℕ) : p.subs k = p.pre := by
  unfold Param.subs
  rw [h]

theorem fold_sound {ps : List Param} {ts : List (List Char)} (ht : List.Forall₂ (fun (p : Param) t => nosp t = p.text) ps ts) :
    ∀ {shapes : List (List (Option ℕ))} {st st' : State} {L : List (Char × ℕ)}, (∀ p ∈ ps, p.Ok) →
      shapes.length = ps.length → Rep st.broadcast L → (ts.zip shapes).foldlM step st = some st' →
      ∃ k, After st st' L ps shapes k := by
  induction ht with
  | nil =>
    intro shapes st st' L _ hl hb h
    obtain rfl := Option.some.inj h
    obtain rfl := List.eq_nil_of_length_eq_zero hl
    refine ⟨st.ellipsisRank.getD 0, List.Forall₂.nil, fun ⟨_, h, _⟩ => (List.not_mem_nil h).elim, ?_, rfl, fun _ => rfl, by simp, by simp,
      by simpa [non1] using hb, by simp [non1], by simp⟩
    rcases st.ellipsisRank with _ | k
    · exact .inl rfl
    · exact .inr rfl
  | @cons p t ps ts hpt htl ih =>
    intro shapes st st' L hok hl hb h
    cases shapes with
    | nil => cases hl
    | cons shape shapes =>
      rw [List.zip_cons_cons, List.foldlM_cons] at h
      obtain ⟨st1, h1, h2⟩ := Option.bind_eq_some_iff.1 h
      unfold step at h1
      obtain ⟨er, he, h1⟩ := Option.bind_eq_some_iff.1 h1
      obtain ⟨subs, hs, h1⟩ := Option.bind_eq_some_iff.1 h1
      obtain ⟨m, hm, h1⟩ := Option.bind_eq_some_iff.1 h1
      obtain ⟨b, hmb, h1⟩ := Option.map_eq_some_iff.1 h1
      simp only at he hs hm
      have hp := hok p List.mem_cons_self
      obtain ⟨r1, o1⟩ := axisDims_sound hm
      obtain ⟨r2, o2⟩ := merge_sound hb r1 hmb
      obtain ⟨k, a⟩ := ih (L := L ++ non1 (known (subs, shape))) (fun q hq => hok q (List.mem_cons_of_mem _ hq))
        (by simpa using hl) (by rw [← h1]; exact r2) h2
      have hst1 : st1.ellipsisRank = er := by rw [← h1]
      have hins1 : st1.ins = st.ins ++ [subs] := by rw [← h1]
      have hdyn1 : st1.dynamic = st.dynamic ++ dynSubs subs shape := by rw [← h1]
      -- the axes of the ellipsis
      have hk : (st.ellipsisRank = none ∨ st.ellipsisRank = some k) ∧ shape.length = (p.subs k).length ∧
          (p.post ≠ none → k ≤ 10) ∧ (p.post = none → er = st.ellipsisRank) := by
        rcases (checkEllipsis_iff hp hpt).1 he with ⟨e1, e2, e3⟩ | ⟨e1, k', e2, e3, e4, e5⟩
        · refine ⟨e3 ▸ hst1 ▸ a.start, ?_, fun h => absurd e1 h, fun _ => e3⟩
          rw [e2, subs_length, e1]
          simp
        · have : k' = k := by
            rcases a.start with h | h <;> rw [hst1, e4] at h
            · cases h
            · exact Option.some.inj h
          subst this
          refine ⟨e5, ?_, fun _ => e2, fun h => absurd h e1⟩
          rw [e3, subs_length, if_pos]
          exact Option.isSome_iff_ne_none.2 e1
      obtain ⟨k1, k2, k3, k4⟩ := hk
      have hsubs : subs = p.subs k := by
        rw [k2, extract_eq hp hpt k3] at hs
        exact (Option.some.inj hs).symm
      subst hsubs
      refine ⟨k, .cons k2 a.ranks, ?_, k1, a.stop, ?_, ?_, ?_, ?_, ?_, ?_⟩
      · rintro ⟨q, hq, hq'⟩
        rcases List.mem_cons.1 hq with rfl | hq
        · exact k3 hq'
        · exact a.le ⟨q, hq, hq'⟩
      · intro h
        rw [a.none fun q hq => h q (List.mem_cons_of_mem _ hq), hst1, k4 (h p List.mem_cons_self)]
      · rw [a.ins, hins1]
        simp
      · intro q hq
        rw [List.map_cons, List.zip_cons_cons] at hq
        rcases List.mem_cons.1 hq with rfl | hq
        · exact o1
        · exact a.own q hq
      · have := a.rep
        simpa [non1] using this
      · intro ho
        have := a.one (o2 ho)
        simpa [non1] using this
      · rw [a.dyn, hdyn1]
        simp

theorem fold_total {ps : List Param} {ts : List (List Char)} (ht : List.Forall₂ (fun (p : Param) t => nosp t = p.text) ps ts)
    {k : ℕ} : ∀ {shapes : List (List (Option ℕ))} {st : State} {L : List (Char × ℕ)}, (∀ p ∈ ps, p.Ok) →
      Rep st.broadcast L → List.Forall₂ (fun (p : Param) t => t.length = (p.subs k).length) ps shapes → k ≤ 10 →
      (st.ellipsisRank = none ∨ st.ellipsisRank = some k) →
      (∀ q ∈ (ps.map (·.subs k)).zip shapes, OneExtent (known q)) →
      OneExtent (L ++ non1 (((ps.map (·.subs k)).zip shapes).flatMap known)) →
      ∃ st', (ts.zip shapes).foldlM step st = some st' := by
  induction ht with
  | nil => intro shapes st L _ _ _ _ _ _ _; exact ⟨st, rfl⟩
  | @cons p t ps ts hpt htl ih =>
    intro shapes st L hok hb hr h10 hst hown hone
    cases hr with
    | @cons _ shape _ shapes hr0 hr =>
      have hp := hok p List.mem_cons_self
      rw [List.zip_cons_cons, List.foldlM_cons]
      have hext := extract_eq hp hpt (k := k) fun _ => h10
      have hassoc : OneExtent ((L ++ non1 (known (p.subs k, shape))) ++
          non1 (((ps.map (·.subs k)).zip shapes).flatMap known)) := by
        simpa [non1] using hone
      obtain ⟨m, hm⟩ := axisDims_total (hown (p.subs k, shape) (by simp))
      obtain ⟨b, hmb⟩ := merge_total hb (axisDims_sound hm).1
        (fun q hq r hr => hassoc q (List.mem_append_left _ hq) r (List.mem_append_left _ hr))
      obtain ⟨er, he, hst'⟩ : ∃ er, checkEllipsis st.ellipsisRank t shape.length = some er ∧ (er = none ∨ er = some k) := by
        rcases hq : p.post with _ | q
        · refine ⟨_, (checkEllipsis_iff hp hpt).2 (.inl ⟨hq, ?_, rfl⟩), hst⟩
          rw [hr0, subs_length, hq]
          simp
        · refine ⟨_, (checkEllipsis_iff hp hpt).2 (.inr ⟨by simp [hq], k, h10, ?_, rfl, hst⟩), .inr rfl⟩
          rw [hr0, subs_length, hq]
          simp
      have hstep : step st (t, shape) = some ⟨er, b, st.dynamic ++ dynSubs (p.subs k) shape, st.ins ++ [p.subs k]⟩ := by
        unfold step
        simp only
        rw [he, Option.bind_some, hr0, hext, Option.bind_some, hm, Option.bind_some, hmb]
        rfl
      rw [hstep]
      exact ih (L := L ++ non1 (known (p.subs k, shape))) (fun q hq => hok q (List.mem_cons_of_mem _ hq))
        (merge_sound hb (axisDims_sound hm).1 hmb).1 hr h10 hst' (fun q hq => hown q (by simp [hq])) hassoc

/-! ### Result -/

theorem outDim_eq {st : State} {ops : List (List Char × List (Option ℕ))}
    (hb : Rep st.broadcast (non1 (ops.flatMap known))) (hd : st.dynamic = ops.flatMap fun q => dynSubs q.1 q.2) (x : Char) :
    outDim st x = typeOf ops x := by
  have hdyn : x ∈ st.dynamic ↔ ∃ p ∈ ops, (x, none) ∈ p.1.zip p.2 := by
    rw [hd, List.mem_flatMap]
    refine exists_congr fun p => and_congr_right fun _ => ?_
    unfold dynSubs
    rw [List.mem_map]
    constructor
    · rintro ⟨⟨y, d⟩, hy, rfl⟩
      rw [List.mem_filter, decide_eq_true_eq] at hy
      obtain ⟨h1, h2⟩ := hy
      simp only at h2
      exact h2 ▸ h1
    · intro h
      exact ⟨(x, none), List.mem_filter.2 ⟨h, by simp⟩, rfl⟩
  unfold outDim typeOf
  rcases hf : (ops.flatMap known).find? fun q => q.1 = x ∧ q.2 ≠ 1 with _ | ⟨y, d⟩
  · have : st.broadcast.lookup x = none := by
      rcases hl : st.broadcast.lookup x with _ | d
      · rfl
      · have := (hb.2 _).1 ((lookup_iff hb.1).1 hl)
        obtain ⟨h1, h2⟩ := List.mem_filter.1 this
        have h3 := List.find?_eq_none.1 hf _ h1
        simp at h2 h3
        exact absurd h3 h2
    rw [this, hf]
    simp only [hdyn]
  · have h1 := List.mem_of_find?_eq_some hf
    have h2 := List.find?_some hf
    simp only [decide_eq_true_eq] at h2
    obtain ⟨rfl, h2⟩ := h2
    have : st.broadcast.lookup y = some d :=
      (lookup_iff hb.1).2 ((hb.2 _).2 (List.mem_filter.2 ⟨h1, by simpa using h2⟩))
    rw [this, hf]

theorem finish_eq {o : Param} {w : List Char} {st : State} {k : ℕ} (ho : o.Ok) (hw : nosp w = o.text)
    (hk : k = st.ellipsisRank.getD 0) (h10 : k ≤ 10) : finish w st =
      if k ≠ 0 ∧ o.post = none then none else some (st.ins, o.subs k, (o.subs k).map (outDim st)) := by
  unfold finish
  rw [← hk, hasEllipsis_iff ho hw, countLetters_eq ho hw]
  simp only
  rw [← subs_length, extract_eq ho hw fun _ => h10]
  simp only [Option.map_some]
  congr 1
  rcases o.post with _ | q <;> simp

theorem inferred_ok {e : Eqn} {a : List Char} (h1 : ∀ p ∈ e.ins, p.Ok) (ha : nosp a = insText e.ins)
    (hout : e.out = none) : ∃ o : Param, o.Ok ∧ nosp (inferEquationOutput a) = o.text ∧ e.result o := by
  unfold inferEquationOutput
  generalize hq : ((a.filter fun c => 'A' ≤ c ∧ a.count c = 1).insertionSort fun a b => a ≤ b) = q
  have hlet : a.filter (fun c => 'A' ≤ c) = e.letters := by
    rw [← ge_nosp, ha, insText_ge h1]
    rfl
  have hcount : ∀ c, 'A' ≤ c → a.count c = e.letters.count c := fun c hc => by
    rw [← hlet, List.count_filter (by simpa using hc)]
  have hmem : ∀ c, c ∈ q ↔ e.letters.count c = 1 := by
    intro c
    rw [← hq, List.mem_insertionSort, List.mem_filter, decide_eq_true_eq]
    constructor
    · rintro ⟨-, hc, h⟩
      rw [← hcount c hc, h]
    · intro h
      have hm : c ∈ e.letters := List.count_pos_iff.1 (by omega)
      rw [← hlet, List.mem_filter, decide_eq_true_eq] at hm
      exact ⟨hm.1, hm.2, by rw [hcount c hm.2, h]⟩
  have hokq : ∀ c ∈ q, isLetter c = true := by
    intro c hc
    have hm : c ∈ e.letters := List.count_pos_iff.1 (by rw [(hmem c).1 hc]; omega)
    obtain ⟨p, hp, hc⟩ := List.mem_flatMap.1 hm
    exact h1 p hp c hc
  refine ⟨⟨[], some q⟩, ?_, ?_, ?_⟩
  · intro c hc
    exact hokq c (by simpa [Param.letters] using hc)
  · rw [nosp_self]
    · rfl
    · intro h
      simp only [List.mem_cons] at h
      rcases h with h | h | h | h
      · exact absurd h (by decide)
      · exact absurd h (by decide)
      · exact absurd h (by decide)
      · exact letter_ne (hokq _ h) (by decide) rfl
  · unfold Eqn.result
    rw [hout]
    refine ⟨rfl, q, rfl, ?_, hmem⟩
    have hs : q.Pairwise fun a b => a ≤ b := by
      rw [← hq]
      exact List.pairwise_insertionSort _ _
    have hn : q.Nodup := by
      rw [← hq, (List.perm_insertionSort _ _).nodup_iff, List.nodup_iff_count_le_one]
      intro c
      by_cases hc : c ∈ a.filter fun c => 'A' ≤ c ∧ a.count c = 1
      · have h := (List.mem_filter.1 hc).2
        rw [decide_eq_true_eq] at h
        rw [List.count_filter (by simpa using h), h.2]
      · rw [List.count_eq_zero.2 hc]
        omega
    exact (hs.and hn).imp fun ⟨h1, h2⟩ => by
      by_contra h3
      exact h2 (Char.le_antisymm h1 (Char.not_lt.1 h3))

theorem result_unique {e : Eqn} {o o' : Param} (h : e.result o) (h' : e.result o') : o = o' := by
  unfold Eqn.result at h h'
  rcases hq : e.out with _ | q
  · rw [hq] at h h'
    obtain ⟨h1, q, h2, h3, h4⟩ := h
    obtain ⟨h1', q', h2', h3', h4'⟩ := h'
    have : q = q' := by
      refine List.Perm.eq_of_pairwise (le := fun a b : Char => a < b) (fun a b _ _ hab hba => ?_) h3 h3' ?_
      · exact absurd hab (Char.lt_asymm hba)
      · exact (List.perm_ext_iff_of_nodup (h3.imp fun h => Char.ne_of_lt h) (h3'.imp fun h => Char.ne_of_lt h)).2 fun c =>
          (h4 c).trans (h4' c).symm
    obtain ⟨a, b⟩ := o
    obtain ⟨a', b'⟩ := o'
    simp only at h1 h2 h1' h2'
    rw [h1, h2, h1', h2', this]
  · rw [hq] at h h'
    simp only at h h'
    rw [h, h']

theorem ellipsis_unique {e : Eqn} {ranks : List ℕ} {k k' : ℕ} (h : e.Ellipsis ranks k) (h' : e.Ellipsis ranks k') :
    k = k' := by
  by_cases hn : ∀ p ∈ e.ins, p.post = none
  · rw [h.2 hn, h'.2 hn]
  · push Not at hn
    obtain ⟨p, hp, hne⟩ := hn
    have key : ∀ {ps : List Param} {ranks : List ℕ}, List.Forall₂ (fun (p : Param) r => r = (p.subs k).length) ps ranks →
        List.Forall₂ (fun (p : Param) r => r = (p.subs k').length) ps ranks → p ∈ ps → k = k' := by
      intro ps ranks h1
      induction h1 with
      | nil => intro _ h; cases h
      | cons h1 _ ih =>
        intro h2 hm
        cases h2 with
        | cons h2 h3 =>
          rcases List.mem_cons.1 hm with rfl | hm
          · rw [subs_length] at h1 h2
            have := Option.isSome_iff_ne_none.2 hne
            simp only [this, if_true] at h1 h2
            omega
          · exact ih h3 hm
    exact key h.1 h'.1 hp

/-- When the code accepts operands of the given types, and with which signature. -/
theorem inferSignature_iff {e : Eqn} {s : List Char} {shapes : List (List (Option ℕ))} (h : e.Reads s)
    (hl : shapes.length = e.ins.length) {r : List (List Char) × List Char × List (Option ℕ)} :
    inferSignature s shapes = some r ↔ ∃ k o, e.Ellipsis (shapes.map List.length) k ∧ k ≤ 10 ∧ e.result o ∧
      (k ≠ 0 → o.post ≠ none) ∧ Agree ((e.ins.map (·.subs k)).zip shapes) ∧
      r = (e.ins.map (·.subs k), o.subs k, (o.subs k).map (typeOf ((e.ins.map (·.subs k)).zip shapes))) := by
  obtain ⟨⟨a, og⟩, hg, ha, ho⟩ := reads_split h
  obtain ⟨⟨hne, hins, hout⟩, -⟩ := h
  have hins' : ∀ p ∈ e.ins, p.Ok := hins
  have na : '-' ∉ a := inputs_notMem hg.1 (by decide) (by decide) (by decide) (by decide)
  -- the texts of the operands and of the result
  obtain ⟨w, o, hw, how, hres, hsig⟩ : ∃ w o, Param.Ok o ∧ nosp w = o.text ∧ e.result o ∧
      inferSignature s shapes = (((splitAll ',' a).zip shapes).foldlM step ⟨none, [], [], []⟩).bind (finish w) := by
    have hlen : e.ins.length = (splitAll ',' a).length := (splitAll_ins hins' hne ha).length_eq
    unfold inferSignature
    rcases hq : e.out with _ | q
    · rw [hq] at ho
      simp only at ho
      subst ho
      obtain ⟨-, hs⟩ := hg
      simp only at hs
      subst hs
      obtain ⟨o, h1, h2, h3⟩ := inferred_ok hins' ha hq
      refine ⟨_, o, h1, h2, h3, ?_⟩
      rw [splitAt_none na]
      simp only [lt_irrefl, if_false]
      rw [if_neg (by omega)]
    · rw [hq] at ho
      simp only at ho
      obtain ⟨d, rfl, hd⟩ := ho
      obtain ⟨-, u, hs, hu, -⟩ := hg
      simp only at hs
      subst hs
      refine ⟨(u ++ '>' :: d).dropWhile (fun c => c == ' ' || c == '>'), q, hout q (hq ▸ rfl), ?_, ?_, ?_⟩
      · rw [List.dropWhile_append_of_pos fun x hx => by simp [nosp_eq_nil.1 hu x hx],
          List.dropWhile_cons_of_pos (by decide), dropWhile_nosp, hd]
        intro c hc hp
        by_contra hne
        have : c = '>' := by simpa [hne] using hp
        subst this
        exact text_notMem (hout q (hq ▸ rfl)) (by decide) (by decide) (hd ▸ mem_nosp.2 ⟨hc, hne⟩)
      · unfold Eqn.result
        rw [hq]
      · rw [splitAt_of na]
        simp only [List.length_append, List.length_cons]
        rw [if_neg (by omega), if_pos (by omega)]
  rw [hsig]
  have hts := splitAll_ins hins' hne ha
  have hranks : ∀ k, List.Forall₂ (fun (p : Param) r => r = (p.subs k).length) e.ins (shapes.map List.length) ↔
      List.Forall₂ (fun (p : Param) (t : List (Option ℕ)) => t.length = (p.subs k).length) e.ins shapes := fun k => by
    rw [List.forall₂_map_right_iff]
  have sound : ∀ st, ((splitAll ',' a).zip shapes).foldlM step ⟨none, [], [], []⟩ = some st →
      ∃ k, e.Ellipsis (shapes.map List.length) k ∧ k ≤ 10 ∧ Agree ((e.ins.map (·.subs k)).zip shapes) ∧
        finish w st = if k ≠ 0 ∧ o.post = none then none else
          some (e.ins.map (·.subs k), o.subs k, (o.subs k).map (typeOf ((e.ins.map (·.subs k)).zip shapes))) := by
    intro st hst
    obtain ⟨k, A⟩ := fold_sound hts hins' hl rep_nil hst
    have hk0 : (∀ p ∈ e.ins, p.post = none) → k = 0 := fun h => by
      rw [A.stop, A.none h]
      rfl
    have h10 : k ≤ 10 := by
      by_cases h : ∃ p ∈ e.ins, p.post ≠ none
      · exact A.le h
      · push Not at h
        rw [hk0 h]
        omega
    have hone := A.one one_nil
    have hrep := A.rep
    rw [List.nil_append] at hone hrep
    refine ⟨k, ⟨(hranks k).2 A.ranks, hk0⟩, h10, ⟨A.own, hone⟩, ?_⟩
    rw [finish_eq hw how A.stop h10, A.ins, List.nil_append]
    rw [show outDim st = typeOf ((e.ins.map (·.subs k)).zip shapes) from
      funext fun x => outDim_eq hrep (by rw [A.dyn, List.nil_append]) x]
  constructor
  · intro hr
    obtain ⟨st, hst, hf⟩ := Option.bind_eq_some_iff.1 hr
    obtain ⟨k, h1, h2, h3, h4⟩ := sound st hst
    rw [h4] at hf
    by_cases hc : k ≠ 0 ∧ o.post = none
    · rw [if_pos hc] at hf
      cases hf
    · rw [if_neg hc] at hf
      exact ⟨k, o, h1, h2, hres, fun h5 h6 => hc ⟨h5, h6⟩, h3, (Option.some.inj hf).symm⟩
  · rintro ⟨k, o', h1, h2, h3, h4, h5, rfl⟩
    obtain rfl := result_unique hres h3
    obtain ⟨st, hst⟩ := fold_total hts (st := ⟨none, [], [], []⟩) hins' rep_nil ((hranks k).1 h1.1) h2 (.inl rfl) h5.1
      (by simpa [non1] using h5.2)
    obtain ⟨k', g1, g2, g3, g4⟩ := sound st hst
    obtain rfl := ellipsis_unique h1 g1
    rw [hst, Option.bind_some, g4, if_neg]
    rintro ⟨h6, h7⟩
    exact h4 h6 h7

end Verif.Einsum.Sig
