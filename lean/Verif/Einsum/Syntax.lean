import Verif.Einsum.Equation

/-!
# Lemmas on the texts of equations
-/

namespace Verif.Einsum

/-- A text without its spaces. -/
def nosp (s : List Char) : List Char := s.filter (· ≠ ' ')

theorem nosp_append (s t : List Char) : nosp (s ++ t) = nosp s ++ nosp t := List.filter_append ..

theorem nosp_cons {c : Char} (h : c ≠ ' ') (s : List Char) : nosp (c :: s) = c :: nosp s := by
  simp [nosp, h]

theorem mem_nosp {c : Char} {s : List Char} : c ∈ nosp s ↔ c ∈ s ∧ c ≠ ' ' := by simp [nosp]

theorem nosp_eq_nil {s : List Char} : nosp s = [] ↔ ∀ c ∈ s, c = ' ' := by simp [nosp, List.filter_eq_nil_iff]

theorem nosp_self {s : List Char} (h : ' ' ∉ s) : nosp s = s :=
  List.filter_eq_self.2 fun c hc => by
    rw [decide_eq_true_eq]
    exact fun h' => h (h' ▸ hc)

theorem nosp_split {s a b : List Char} (h : nosp s = a ++ b) : ∃ u v, s = u ++ v ∧ nosp u = a ∧ nosp v = b :=
  List.filter_eq_append_iff.1 h

theorem nosp_split_cons {s b : List Char} {c : Char} (h : nosp s = c :: b) :
    ∃ u v, s = u ++ c :: v ∧ nosp u = [] ∧ nosp v = b := by
  obtain ⟨u, v, h1, h2, -, h4⟩ := List.filter_eq_cons_iff.1 h
  exact ⟨u, v, h1, List.filter_eq_nil_iff.2 h2, h4⟩

theorem nosp_split_at {s a b : List Char} {c : Char} (h : nosp s = a ++ c :: b) :
    ∃ u v, s = u ++ c :: v ∧ nosp u = a ∧ nosp v = b := by
  obtain ⟨u, v, rfl, h1, h2⟩ := nosp_split h
  obtain ⟨p, q, rfl, h3, h4⟩ := nosp_split_cons h2
  exact ⟨u ++ p, q, by simp, by rw [nosp_append, h1, h3, List.append_nil], h4⟩

theorem count_nosp {c : Char} (h : c ≠ ' ') (s : List Char) : (nosp s).count c = s.count c :=
  List.count_filter (by simpa using h)

/-! ### Letters -/

theorem letter_ge {c : Char} (h : isLetter c = true) : 'A' ≤ c := by
  unfold isLetter at h
  rw [decide_eq_true_eq] at h
  rcases h with h | h
  · exact h.1
  · exact Char.le_trans (show 'A' ≤ 'a' by decide) h.1

theorem letter_ne {c d : Char} (h : isLetter c = true) (hd : d < 'A') : c ≠ d := by
  rintro rfl
  exact absurd (letter_ge h) (Char.not_le.2 hd)

/-- The subscripts of a parameter are letters. -/
def Param.Ok (p : Param) : Prop := ∀ c ∈ p.letters, isLetter c = true

theorem Param.mem_text {p : Param} {c : Char} (h : c ∈ p.text) : c ∈ p.letters ∨ c = '.' := by
  unfold text at h
  unfold letters
  rcases hp : p.post with _ | q
  · rw [hp] at h
    exact .inl (by simpa using h)
  · rw [hp] at h
    simp only [List.mem_append, List.mem_cons] at h
    simp only [Option.getD_some, List.mem_append]
    tauto

theorem Param.text_ge {p : Param} (hp : p.Ok) : p.text.filter (fun c => 'A' ≤ c) = p.letters := by
  have key : ∀ l : List Char, (∀ c ∈ l, isLetter c = true) → l.filter (fun c => decide ('A' ≤ c)) = l := fun l h =>
    List.filter_eq_self.2 fun c hc => by rw [decide_eq_true_eq]; exact letter_ge (h c hc)
  unfold Ok letters at hp
  unfold text letters
  rcases hq : p.post with _ | q
  · rw [hq] at hp
    simp only [Option.getD_none, List.append_nil] at hp ⊢
    exact key _ hp
  · rw [hq] at hp
    simp only [Option.getD_some] at hp ⊢
    rw [List.filter_append, key _ fun c hc => hp c (List.mem_append_left _ hc)]
    congr 1
    simp only [List.filter_cons, show ¬ 'A' ≤ '.' by decide, decide_false, Bool.false_eq_true, if_false]
    exact key _ fun c hc => hp c (List.mem_append_right _ hc)

theorem insText_cons (p : Param) (ps : List Param) :
    insText (p :: ps) = p.text ++ ps.flatMap fun q => ',' :: q.text := by
  induction ps generalizing p with
  | nil => simp [insText]
  | cons q ps ih => simp [insText, ih]

theorem mem_insText {ps : List Param} {c : Char} (h : c ∈ insText ps) :
    (∃ p ∈ ps, c ∈ p.letters) ∨ c = '.' ∨ c = ',' := by
  cases ps with
  | nil => cases h
  | cons p ps =>
    rw [insText_cons, List.mem_append, List.mem_flatMap] at h
    rcases h with h | ⟨q, hq, h⟩
    · rcases Param.mem_text h with h | h
      · exact .inl ⟨p, List.mem_cons_self, h⟩
      · exact .inr (.inl h)
    · rcases List.mem_cons.1 h with h | h
      · exact .inr (.inr h)
      · rcases Param.mem_text h with h | h
        · exact .inl ⟨q, List.mem_cons_of_mem _ hq, h⟩
        · exact .inr (.inl h)

theorem insText_ge {ps : List Param} (hp : ∀ p ∈ ps, p.Ok) :
    (insText ps).filter (fun c => 'A' ≤ c) = ps.flatMap Param.letters := by
  cases ps with
  | nil => rfl
  | cons p ps =>
    rw [insText_cons, List.filter_append, Param.text_ge (hp p List.mem_cons_self), List.flatMap_cons]
    congr 1
    have hp' : ∀ q ∈ ps, q.Ok := fun q hq => hp q (List.mem_cons_of_mem _ hq)
    clear hp
    induction ps with
    | nil => rfl
    | cons q ps ih =>
      rw [List.flatMap_cons, List.filter_append, List.flatMap_cons, ih fun r hr => hp' r (List.mem_cons_of_mem _ hr)]
      congr 1
      simp only [List.filter_cons, show ¬ 'A' ≤ ',' by decide, decide_false, Bool.false_eq_true, if_false]
      exact Param.text_ge (hp' q List.mem_cons_self)

theorem insText_notMem {ps : List Param} (hp : ∀ p ∈ ps, p.Ok) {c : Char} (h1 : c < 'A') (h2 : c ≠ '.') (h3 : c ≠ ',') :
    c ∉ insText ps := by
  intro h
  rcases mem_insText h with ⟨p, hp', h⟩ | h | h
  · exact letter_ne (hp p hp' c h) h1 rfl
  · exact h2 h
  · exact h3 h

theorem text_notMem {p : Param} (hp : p.Ok) {c : Char} (h1 : c < 'A') (h2 : c ≠ '.') : c ∉ p.text := by
  intro h
  rcases Param.mem_text h with h | h
  · exact letter_ne (hp c h) h1 rfl
  · exact h2 h

theorem count_insText {ps : List Param} (hp : ∀ p ∈ ps, p.Ok) : (insText ps).count ',' = ps.length - 1 := by
  have h0 : ∀ p : Param, p.Ok → p.text.count ',' = 0 := fun p h =>
    List.count_eq_zero.2 (text_notMem h (by decide) (by decide))
  cases ps with
  | nil => rfl
  | cons p ps =>
    rw [insText_cons, List.count_append, h0 p (hp p List.mem_cons_self), List.length_cons, Nat.zero_add, Nat.add_sub_cancel]
    have hp' : ∀ q ∈ ps, q.Ok := fun q hq => hp q (List.mem_cons_of_mem _ hq)
    clear hp
    induction ps with
    | nil => rfl
    | cons q ps ih =>
      rw [List.flatMap_cons, List.count_append, List.count_cons_self, h0 q (hp' q List.mem_cons_self),
        ih fun r hr => hp' r (List.mem_cons_of_mem _ hr), List.length_cons]
      omega

/-! ### Regular expressions -/

namespace Sig

theorem mem_star_set {p : Char → Bool} {s : List Char} : (Re.star (.set p)).Mem s ↔ ∀ c ∈ s, p c = true := by
  induction s with
  | nil => exact ⟨fun _ c hc => (List.not_mem_nil hc).elim, fun _ => Re.Mem.starNil⟩
  | cons c s ih =>
    rw [Re.star_cons]
    constructor
    · rintro ⟨u, v, rfl, h1, h2⟩
      obtain ⟨d, hd, he⟩ := Re.mem_set.1 h1
      obtain ⟨rfl, rfl⟩ := List.cons.inj he
      rw [List.nil_append] at ih
      intro e he
      rcases List.mem_cons.1 he with rfl | he
      · exact hd
      · exact (ih.1 h2) e he
    · intro h
      exact ⟨[], s, rfl, .set (h c List.mem_cons_self), ih.2 fun d hd => h d (List.mem_cons_of_mem _ hd)⟩

theorem mem_spaces {s : List Char} : spaces.Mem s ↔ nosp s = [] := by
  unfold spaces
  rw [mem_star_set, nosp_eq_nil]
  simp

theorem mem_subscripts {s : List Char} : subscripts.Mem s ↔ ∀ c ∈ nosp s, isLetter c = true := by
  unfold subscripts
  rw [mem_star_set]
  refine ⟨fun h c hc => ?_, fun h c hc => ?_⟩
  · obtain ⟨h1, h2⟩ := mem_nosp.1 hc
    have := h c h1
    unfold isLetter
    simp only [Bool.or_eq_true, beq_iff_eq, Bool.and_eq_true, decide_eq_true_eq] at this ⊢
    tauto
  · by_cases h' : c = ' '
    · simp [h']
    · have := h c (mem_nosp.2 ⟨hc, h'⟩)
      unfold isLetter at this
      simp only [Bool.or_eq_true, beq_iff_eq, Bool.and_eq_true, decide_eq_true_eq] at this ⊢
      tauto

theorem mem_chr {d : Char} {s : List Char} : (Re.set (· == d)).Mem s ↔ s = [d] := by
  rw [Re.mem_set]
  simp

theorem mem_ellipsis {s : List Char} : ellipsis.Mem s ↔
    ∃ u v, s = '.' :: (u ++ '.' :: (v ++ ['.'])) ∧ nosp u = [] ∧ nosp v = [] := by
  unfold ellipsis
  simp only [Re.mem_seq, mem_chr, mem_spaces]
  constructor
  · rintro ⟨_, _, rfl, rfl, u, _, rfl, hu, _, _, rfl, rfl, v, _, rfl, hv, rfl⟩
    exact ⟨u, v, rfl, hu, hv⟩
  · rintro ⟨u, v, rfl, hu, hv⟩
    exact ⟨_, _, rfl, rfl, u, _, rfl, hu, _, _, rfl, rfl, v, _, rfl, hv, rfl⟩

theorem mem_arrow {s : List Char} : arrow.Mem s ↔ ∃ u, s = '-' :: (u ++ ['>']) ∧ nosp u = [] := by
  unfold arrow
  simp only [Re.mem_seq, mem_chr, mem_spaces]
  constructor
  · rintro ⟨_, _, rfl, rfl, u, _, rfl, hu, rfl⟩
    exact ⟨u, rfl, hu⟩
  · rintro ⟨u, rfl, hu⟩
    exact ⟨_, _, rfl, rfl, u, _, rfl, hu, rfl⟩

theorem mem_parameter {s : List Char} : parameter.Mem s ↔ ∃ p : Param, p.Ok ∧ nosp s = p.text := by
  unfold parameter
  simp only [Re.mem_seq, Re.mem_alt, Re.mem_eps, mem_subscripts, mem_ellipsis]
  constructor
  · rintro ⟨a, _, rfl, ha, (⟨_, b, rfl, ⟨u, v, rfl, hu, hv⟩, hb⟩ | rfl)⟩
    · refine ⟨⟨nosp a, some (nosp b)⟩, ?_, ?_⟩
      · intro c hc
        rcases List.mem_append.1 hc with hc | hc
        · exact ha c hc
        · exact hb c hc
      · simp [nosp_append, nosp_cons, hu, hv, Param.text]
    · refine ⟨⟨nosp a, none⟩, ?_, ?_⟩
      · intro c hc
        simp only [Param.letters, Option.getD_none, List.append_nil] at hc
        exact ha c hc
      · simp [Param.text]
  · rintro ⟨⟨pre, post⟩, hok, h⟩
    rcases post with _ | q
    · refine ⟨s, [], by simp, ?_, .inr rfl⟩
      rw [h]
      intro c hc
      exact hok c (by simpa [Param.letters, Param.text] using hc)
    · simp only [Param.text] at h
      obtain ⟨a, r, rfl, ha, hr⟩ := nosp_split_at h
      obtain ⟨u, r, rfl, hu, hr⟩ := nosp_split_cons hr
      obtain ⟨v, b, rfl, hv, hb⟩ := nosp_split_cons hr
      refine ⟨a, _, rfl, ?_, .inl ⟨'.' :: (u ++ '.' :: (v ++ ['.'])), b, by simp, ⟨u, v, rfl, hu, hv⟩, ?_⟩⟩
      · rw [ha]
        exact fun c hc => hok c (List.mem_append_left _ hc)
      · rw [hb]
        exact fun c hc => hok c (List.mem_append_right _ hc)

theorem mem_tail {s : List Char} (h : (Re.star (.seq (.set (· == ',')) parameter)).Mem s) :
    ∃ ps : List Param, (∀ p ∈ ps, p.Ok) ∧ nosp s = ps.flatMap fun q => ',' :: q.text := by
  generalize hn : s.length = n
  induction n using Nat.strong_induction_on generalizing s with
  | _ n ih =>
    cases s with
    | nil => exact ⟨[], by simp, rfl⟩
    | cons c s =>
      obtain ⟨u, v, rfl, h1, h2⟩ := Re.star_cons.1 h
      obtain ⟨_, w, hw, h3, h4⟩ := Re.mem_seq.1 h1
      rw [mem_chr.1 h3] at hw
      obtain ⟨rfl, rfl⟩ := List.cons.inj hw
      obtain ⟨p, hp, hpt⟩ := mem_parameter.1 h4
      obtain ⟨ps, hps, ht⟩ := ih v.length (by rw [← hn]; simp; omega) h2 rfl
      refine ⟨p :: ps, ?_, ?_⟩
      · intro q hq
        rcases List.mem_cons.1 hq with rfl | hq
        · exact hp
        · exact hps q hq
      · rw [nosp_cons (by decide), nosp_append]
        simp [ht, ← hpt]

theorem mem_inputs {s : List Char} : inputs.Mem s ↔
    ∃ ps : List Param, ps ≠ [] ∧ (∀ p ∈ ps, p.Ok) ∧ nosp s = insText ps := by
  unfold inputs
  rw [Re.mem_seq]
  constructor
  · rintro ⟨a, b, rfl, ha, hb⟩
    obtain ⟨p, hp, hpt⟩ := mem_parameter.1 ha
    obtain ⟨ps, hps, ht⟩ := mem_tail hb
    refine ⟨p :: ps, by simp, ?_, ?_⟩
    · intro q hq
      rcases List.mem_cons.1 hq with rfl | hq
      · exact hp
      · exact hps q hq
    · rw [insText_cons, nosp_append, hpt, ht]
  · rintro ⟨ps, hne, hps, h⟩
    cases ps with
    | nil => exact absurd rfl hne
    | cons p ps =>
      rw [insText_cons] at h
      clear hne
      induction ps generalizing s p with
      | nil =>
        exact ⟨s, [], by simp, mem_parameter.2 ⟨p, hps p List.mem_cons_self, by simpa using h⟩, .starNil⟩
      | cons q ps ih =>
        rw [List.flatMap_cons, List.cons_append] at h
        obtain ⟨u, v, rfl, hu, hv⟩ := nosp_split_at h
        obtain ⟨a, b, rfl, ha, hb⟩ := ih q (fun r hr => hps r (List.mem_cons_of_mem _ hr)) hv
        refine ⟨u, _, rfl, mem_parameter.2 ⟨p, hps p List.mem_cons_self, hu⟩, ?_⟩
        exact Re.Mem.starCons (s := ',' :: a) (.seq (s := [',']) (mem_chr.2 rfl) ha) hb

/-! ### Groups -/

theorem append_cons_inj {c : Char} : ∀ {a b u v : List Char}, c ∉ a → c ∉ b → a ++ c :: u = b ++ c :: v → a = b ∧ u = v
  | [], [], u, v, _, _, h => ⟨rfl, (List.cons.inj h).2⟩
  | [], x :: b, u, v, _, hb, h => absurd (List.mem_cons.2 (.inl (List.cons.inj h).1)) hb
  | x :: a, [], u, v, ha, _, h => absurd (List.mem_cons.2 (.inl (List.cons.inj h).1.symm)) ha
  | x :: a, y :: b, u, v, ha, hb, h => by
    have h1 := (List.cons.inj h).1
    have h2 := append_cons_inj (fun h => ha (List.mem_cons_of_mem _ h)) (fun h => hb (List.mem_cons_of_mem _ h))
      (List.cons.inj h).2
    exact ⟨by rw [h1, h2.1], h2.2⟩

/-- A match with its groups. -/
def Match (s : List Char) (g : List Char × Option (List Char)) : Prop :=
  inputs.Mem g.1 ∧ match g.2 with
    | none => s = g.1
    | some d => ∃ u, s = g.1 ++ '-' :: (u ++ '>' :: d) ∧ nosp u = [] ∧ parameter.Mem d

theorem inputs_notMem {a : List Char} (h : inputs.Mem a) {c : Char} (h0 : c ≠ ' ') (h1 : c < 'A') (h2 : c ≠ '.')
    (h3 : c ≠ ',') : c ∉ a := by
  obtain ⟨ps, -, hps, ht⟩ := mem_inputs.1 h
  intro hc
  exact insText_notMem hps h1 h2 h3 (ht ▸ mem_nosp.2 ⟨hc, h0⟩)

theorem match_unique {s : List Char} {g g' : List Char × Option (List Char)} (h : Match s g) (h' : Match s g') :
    g = g' := by
  obtain ⟨a, o⟩ := g
  obtain ⟨a', o'⟩ := g'
  obtain ⟨h1, h2⟩ := h
  obtain ⟨h1', h2'⟩ := h'
  have na : '-' ∉ a := inputs_notMem h1 (by decide) (by decide) (by decide) (by decide)
  have na' : '-' ∉ a' := inputs_notMem h1' (by decide) (by decide) (by decide) (by decide)
  rcases o with _ | d <;> rcases o' with _ | d'
  · simp only at h2 h2'
    rw [← h2, ← h2']
  · simp only at h2 h2'
    obtain ⟨u, hu, -⟩ := h2'
    exact absurd (by rw [← h2, hu]; simp) na
  · simp only at h2 h2'
    obtain ⟨u, hu, -⟩ := h2
    exact absurd (by rw [← h2', hu]; simp) na'
  · simp only at h2 h2'
    obtain ⟨u, hu, hs, -⟩ := h2
    obtain ⟨u', hu', hs', -⟩ := h2'
    have nu : ∀ w : List Char, nosp w = [] → '>' ∉ w := fun w hw hc => by
      have := nosp_eq_nil.1 hw _ hc
      exact absurd this (by decide)
    obtain ⟨rfl, h3⟩ := append_cons_inj na na' (hu.symm.trans hu')
    obtain ⟨-, rfl⟩ := append_cons_inj (nu u hs) (nu u' hs') h3
    rfl

theorem mem_cuts {s : List Char} {c : List Char × List Char} : c ∈ cuts s ↔ s = c.1 ++ c.2 := by
  unfold cuts
  rw [List.mem_map]
  constructor
  · rintro ⟨k, -, rfl⟩
    simp
  · intro h
    refine ⟨c.1.length, ?_, ?_⟩
    · rw [List.mem_range, h, List.length_append]
      omega
    · rw [h]
      simp

theorem groups_sound {s : List Char} {g : List Char × Option (List Char)} (h : groups s = some g) : Match s g := by
  unfold groups at h
  obtain ⟨⟨a, b⟩, hc, h⟩ := List.exists_of_findSome?_eq_some h
  rw [mem_cuts] at hc
  simp only at hc h
  by_cases hi : inputs.accepts a = true
  · rw [if_pos hi] at h
    by_cases hb : b = []
    · rw [if_pos hb] at h
      obtain rfl := Option.some.inj h
      exact ⟨(Re.accepts_iff _ _).1 hi, by simp [hc, hb]⟩
    · rw [if_neg hb] at h
      obtain ⟨⟨u, d⟩, hd, h⟩ := List.exists_of_findSome?_eq_some h
      rw [mem_cuts] at hd
      simp only at hd h
      by_cases hj : (arrow.accepts u && parameter.accepts d) = true
      · rw [if_pos hj] at h
        obtain rfl := Option.some.inj h
        rw [Bool.and_eq_true, Re.accepts_iff, Re.accepts_iff, mem_arrow] at hj
        obtain ⟨⟨w, rfl, hw⟩, hp⟩ := hj
        exact ⟨(Re.accepts_iff _ _).1 hi, w, by simp [hc, hd], hw, hp⟩
      · rw [if_neg hj] at h
        cases h
  · rw [if_neg hi] at h
    cases h

theorem groups_iff {s : List Char} {g : List Char × Option (List Char)} : groups s = some g ↔ Match s g := by
  refine ⟨groups_sound, fun h => ?_⟩
  have hs : (groups s).isSome := by
    unfold groups
    obtain ⟨a, o⟩ := g
    obtain ⟨h1, h2⟩ := h
    simp only at h1 h2
    rw [List.findSome?_isSome_iff]
    rcases o with _ | d
    · simp only at h2
      refine ⟨(a, []), mem_cuts.2 (by simp [h2]), ?_⟩
      rw [if_pos ((Re.accepts_iff _ _).2 h1), if_pos rfl]
      rfl
    · simp only at h2
      obtain ⟨u, hu, hs, hp⟩ := h2
      refine ⟨(a, '-' :: (u ++ '>' :: d)), mem_cuts.2 hu, ?_⟩
      rw [if_pos ((Re.accepts_iff _ _).2 h1), if_neg (by simp), List.findSome?_isSome_iff]
      refine ⟨('-' :: (u ++ ['>']), d), mem_cuts.2 (by simp), ?_⟩
      rw [if_pos]
      · rfl
      · rw [Bool.and_eq_true, Re.accepts_iff, Re.accepts_iff, mem_arrow]
        exact ⟨⟨u, rfl, hs⟩, hp⟩
  obtain ⟨g', hg⟩ := Option.isSome_iff_exists.1 hs
  rw [hg, match_unique (groups_sound hg) h]

/-- The parts of the text of an equation. -/
theorem reads_split {e : Eqn} {s : List Char} (h : e.Reads s) : ∃ g, Match s g ∧ nosp g.1 = insText e.ins ∧
    match e.out with
    | none => g.2 = none
    | some o => ∃ d, g.2 = some d ∧ nosp d = o.text := by
  obtain ⟨⟨h0, h1, h2⟩, h3⟩ := h
  unfold Eqn.text at h3
  rcases ho : e.out with _ | o
  · rw [ho] at h3
    exact ⟨(s, none), ⟨mem_inputs.2 ⟨_, h0, h1, h3⟩, rfl⟩, h3, rfl⟩
  · rw [ho] at h3
    obtain ⟨a, r, rfl, ha, hr⟩ := nosp_split_at h3
    obtain ⟨u, d, rfl, hu, hd⟩ := nosp_split_cons hr
    exact ⟨(a, some d), ⟨mem_inputs.2 ⟨_, h0, h1, ha⟩, u, rfl, hu, mem_parameter.2 ⟨o, h2 o (ho ▸ rfl), hd⟩⟩, ha, d, rfl, hd⟩

theorem match_reads {s : List Char} {g : List Char × Option (List Char)} (h : Match s g) : ∃ e : Eqn, e.Reads s ∧
    nosp g.1 = insText e.ins ∧
    match e.out with
    | none => g.2 = none
    | some o => ∃ d, g.2 = some d ∧ nosp d = o.text := by
  obtain ⟨a, o⟩ := g
  obtain ⟨h1, h2⟩ := h
  obtain ⟨ps, hne, hps, ht⟩ := mem_inputs.1 h1
  rcases o with _ | d
  · simp only at h2
    subst h2
    exact ⟨⟨ps, none⟩, ⟨⟨hne, hps, by simp⟩, ht⟩, ht, rfl⟩
  · simp only at h2
    obtain ⟨u, rfl, hu, hd⟩ := h2
    obtain ⟨p, hp, hpt⟩ := mem_parameter.1 hd
    refine ⟨⟨ps, some p⟩, ⟨⟨hne, hps, ?_⟩, ?_⟩, ht, d, rfl, hpt⟩
    · intro o ho
      rw [← Option.some.inj ho]
      exact hp
    · show nosp _ = _
      simp only at ht
      simp [nosp_append, nosp_cons, hu, ht, hpt, Eqn.text]

theorem checkOutput_iff {a d : List Char} : checkOutput a d = true ↔
    (d.filter fun c => 'A' ≤ c).Nodup ∧ ∀ c ∈ d.filter fun c => 'A' ≤ c, c ∈ a := by
  induction d with
  | nil => simp [checkOutput]
  | cons x d ih =>
    rw [checkOutput, Bool.and_eq_true, ih]
    by_cases hx : 'A' ≤ x
    · simp only [hx, List.filter_cons, decide_true, if_true, List.nodup_cons, List.mem_cons, forall_eq_or_imp, Bool.not_true,
        Bool.false_or, Bool.and_eq_true, decide_eq_true_eq, List.mem_filter, and_true]
      constructor
      · rintro ⟨⟨h1, h2⟩, h3, h4⟩
        exact ⟨⟨h1, h3⟩, h2, h4⟩
      · rintro ⟨⟨h1, h3⟩, h2, h4⟩
        exact ⟨⟨h1, h2⟩, h3, h4⟩
    · simp only [hx, List.filter_cons, decide_false, Bool.not_false, Bool.true_or, true_and, Bool.false_eq_true, if_false]

/-- The letters of a text. -/
theorem ge_nosp (s : List Char) : (nosp s).filter (fun c => 'A' ≤ c) = s.filter fun c => 'A' ≤ c := by
  unfold nosp
  rw [List.filter_filter]
  refine List.filter_congr fun c _ => ?_
  by_cases h : c = ' '
  · subst h
    decide
  · simp [h]

theorem outOk_iff {e : Eqn} {o : Param} {a d : List Char} (h1 : ∀ p ∈ e.ins, p.Ok) (h2 : o.Ok)
    (ha : nosp a = insText e.ins) (hd : nosp d = o.text) :
    checkOutput a d = true ↔ o.letters.Nodup ∧ ∀ c ∈ o.letters, c ∈ e.letters := by
  rw [checkOutput_iff, ← ge_nosp d, hd, Param.text_ge h2]
  refine and_congr_right fun _ => forall₂_congr fun c hc => ?_
  have hc' := letter_ge (h2 c hc)
  unfold Eqn.letters
  rw [← insText_ge h1, ← ha, ge_nosp, List.mem_filter]
  simp [hc']

theorem verifyEquation_iff {s : List Char} {n : ℕ} : verifyEquation s n = true ↔
    ∃ e : Eqn, e.Reads s ∧ e.ins.length = n ∧ e.OutOk := by
  have key : ∀ (e : Eqn) (g : List Char × Option (List Char)), e.Reads s → Match s g → nosp g.1 = insText e.ins →
      (match e.out with
        | none => g.2 = none
        | some o => ∃ d, g.2 = some d ∧ nosp d = o.text) →
      (verifyEquation s n = true ↔ e.ins.length = n ∧ e.OutOk) := by
    rintro e ⟨a, o⟩ he hg ha ho
    have hcount : s.count ',' + 1 = e.ins.length := by
      have := count_insText he.1.2.1
      have hne := List.length_pos_iff.2 he.1.1
      rw [← count_nosp (by decide)]
      have h3 : nosp s = e.text := he.2
      rw [h3]
      unfold Eqn.text
      rcases hq : e.out with _ | q
      · simp only
        omega
      · simp only [List.count_append]
        rw [List.count_cons_of_ne (by decide), List.count_cons_of_ne (by decide),
          List.count_eq_zero.2 (text_notMem (he.1.2.2 q (hq ▸ rfl)) (by decide) (by decide))]
        omega
    unfold verifyEquation
    rw [groups_iff.2 hg]
    simp only at ha ho ⊢
    rw [hcount]
    by_cases hn : e.ins.length = n
    · rw [if_neg (not_not.2 hn)]
      rcases hq : e.out with _ | q
      · rw [hq] at ho
        simp only at ho
        subst ho
        simp [hn, Eqn.OutOk, hq]
      · rw [hq] at ho
        obtain ⟨d, hd, ht⟩ := ho
        subst hd
        simp only
        rw [outOk_iff he.1.2.1 (he.1.2.2 q (hq ▸ rfl)) ha ht]
        simp [hn, Eqn.OutOk, hq]
    · rw [if_pos hn]
      simp [hn]
  constructor
  · intro h
    have h' := h
    unfold verifyEquation at h'
    rcases hg : groups s with _ | g
    · rw [hg] at h'
      cases h'
    · obtain ⟨e, h1, h2, h3⟩ := match_reads (groups_iff.1 hg)
      exact ⟨e, h1, (key e g h1 (groups_iff.1 hg) h2 h3).1 h⟩
  · rintro ⟨e, h1, h2, h3⟩
    obtain ⟨g, hg, h4, h5⟩ := reads_split h1
    exact (key e g h1 hg h4 h5).2 ⟨h2, h3⟩

end Sig

end Verif.Einsum
