import Verif.Driver.Model
import Verif.Session.Lemmas
/-!
# The driver: lemmas (C111)
-/
namespace Verif.Driver
open Verif.Session (Str lower)

/-! ## Parsing flags -/

theorem scan_quoted_body (f : Str) (st : Scan) (h1 : st.dq = true) (h2 : st.sq = false)
    (h3 : st.esc = false) :
    (f.flatMap fun c => if c = '"' ∨ c = '\\' then ['\\', c] else [c]).foldl scan st =
      { st with cur := st.cur ++ f } := by
  induction f generalizing st with
  | nil => simp
  | cons c f ih =>
    rw [List.flatMap_cons, List.foldl_append]
    have hstep : (if c = '"' ∨ c = '\\' then ['\\', c] else [c]).foldl scan st =
        { st with cur := st.cur ++ [c] } := by
      by_cases hc : c = '"' ∨ c = '\\'
      · simp only [hc, if_true, List.foldl_cons, List.foldl_nil]
        simp [scan, h3]
      · rw [not_or] at hc
        simp [scan, h1, h3, hc.1, hc.2]
    rw [hstep, ih { st with cur := st.cur ++ [c] } h1 h2 h3]
    simp

theorem scan_quoted (f : Str) (st : Scan) (h1 : st.dq = false) (h2 : st.sq = false)
    (h3 : st.esc = false) : (quoted f).foldl scan st = { st with cur := st.cur ++ f } := by
  have hb := scan_quoted_body f { st with dq := true } rfl h2 h3
  have hopen : scan st '"' = { st with dq := true } := by simp [scan, h1, h2, h3]
  rw [quoted, List.cons_append, List.foldl_cons, List.foldl_append, hopen, hb]
  simp [scan, h1, h2, h3]

/-- The last step of `parseFlags`. -/
def finish (st : Scan) : List Str := if st.cur ≠ [] then st.flags ++ [st.cur] else st.flags

theorem parse_written (fs : List Str) (hf : ∀ f ∈ fs, f ≠ []) (done : List Str) :
    finish ((written fs).foldl scan { flags := done }) = done ++ fs := by
  induction fs generalizing done with
  | nil => simp [written, finish]
  | cons f fs ih =>
    have h0 := hf f (by simp)
    cases fs with
    | nil =>
      rw [written, scan_quoted f _ rfl rfl rfl]
      simp [h0, finish]
    | cons g gs =>
      have := ih (fun x hx => hf x (by simp [hx])) (done ++ [f])
      have hsp : scan { flags := done, cur := [] ++ f } ' ' = { flags := done ++ [f] } := by
        simp [scan, isSpace, h0]
      rw [written, List.foldl_append, List.foldl_cons, scan_quoted f _ rfl rfl rfl]
      · rw [hsp, this]
        simp
      · simp

theorem parseFlags_written (fs : List Str) (hf : ∀ f ∈ fs, f ≠ []) :
    parseFlags (written fs) = fs := by
  have := parse_written fs hf []
  exact this

/-! ## What the flags say -/

/-- The name of the output. -/
def Flag.outVal : Flag → Option Str
  | .out v => some v
  | .outEq v => some v
  | _ => none

/-- The tag. -/
def Flag.tagVal : Flag → Option Str
  | .tag _ v => some v
  | _ => none

/-- What is generated. -/
def Flag.emitVal : Flag → Option Target
  | .emit _ n => some (targetOf n)
  | _ => none

/-- The option as the compiler reads it. -/
def Flag.item : Flag → Item
  | .out v => .opt (lit "o") (some v)
  | .outEq v => .opt (lit "o") (some v)
  | .emit _ n => .opt n none
  | .tag _ v => .opt (lit "tag") (some v)
  | .other a => .opt (splitEq (strip a)).1 (splitEq (strip a)).2
  | .otherVal a v => .opt (splitEq (strip a)).1 (some v)

theorem lit_o : lit "-o" = ['-', 'o'] := by decide +kernel
theorem lit_oeq : lit "-o=" = ['-', 'o', '='] := by decide +kernel
theorem lit_tag : lit "tag=" = ['t', 'a', 'g', '='] := by decide +kernel
theorem lit_ddtag : lit "--tag=" = ['-', '-', 't', 'a', 'g', '='] := by decide +kernel
theorem lit_dtag : lit "-tag=" = ['-', 't', 'a', 'g', '='] := by decide +kernel
theorem lit_Emit : lit "-Emit" = ['-', 'E', 'm', 'i', 't'] := by decide +kernel
theorem lit_ddEmit : lit "--Emit" = ['-', '-', 'E', 'm', 'i', 't'] := by decide +kernel

theorem namesFile_ne {v : Str} (h : NamesFile v) : v ≠ [] := by
  rintro rfl
  obtain ⟨c, hc, _⟩ := h
  simp at hc

theorem not_prefix {p a : Str} (h : ¬ p <+: a) : p.isPrefixOf a = false := by
  rw [Bool.eq_false_iff]
  intro h'
  exact h (List.isPrefixOf_iff_prefix.mp h')

theorem no_dash_prefix {v : Str} (h : v.head? ≠ some '-') (p : Str) :
    ('-' :: p).isPrefixOf v = false := by
  cases v with
  | nil => rfl
  | cons c v =>
    have : c ≠ '-' := fun e => h (by simp [e])
    simp [List.isPrefixOf, this.symm]

theorem other_o {a : Str} (h : Other a) :
    (lit "-o=").isPrefixOf a = false ∧ (lit "-o").isPrefixOf a = false := by
  obtain ⟨_, _, _, h, _⟩ := h
  refine ⟨not_prefix fun h' => h ?_, not_prefix h⟩
  obtain ⟨t, rfl⟩ := h'
  rw [lit_oeq, lit_o]
  exact ⟨'=' :: t, rfl⟩

theorem other_tag {a : Str} (h : Other a) :
    (lit "--tag=").isPrefixOf a = false ∧ (lit "-tag=").isPrefixOf a = false := by
  obtain ⟨_, _, _, _, _, _, _, h, _⟩ := h
  have hl : lit "tag" = ['t', 'a', 'g'] := by decide +kernel
  constructor
  · refine not_prefix fun h' => h ?_
    obtain ⟨t, rfl⟩ := h'
    rw [lit_ddtag, hl]
    simp [strip, splitEq, List.dropWhile, List.takeWhile]
  · refine not_prefix fun h' => h ?_
    obtain ⟨t, rfl⟩ := h'
    rw [lit_dtag, hl]
    simp [strip, splitEq, List.dropWhile, List.takeWhile]

theorem outBase_eq (takes : Str → Bool) (fs : List Flag) (h : ∀ f ∈ fs, f.Ok takes) :
    getOutputBasenameFromFlags (args fs) = ((fs.filterMap Flag.outVal).head?).getD [] := by
  induction fs with
  | nil => rfl
  | cons f fs ih =>
    have ih := ih (fun g hg => h g (by simp [hg]))
    have hf := h f (by simp)
    have hargs : args (f :: fs) = f.args ++ args fs := rfl
    rw [hargs]
    cases f with
    | out v =>
      simp [Flag.args, getOutputBasenameFromFlags, lit_o, lit_oeq, List.isPrefixOf, Flag.outVal]
    | outEq v =>
      have hv := namesFile_ne hf.2
      have hlen : 0 < v.length := List.length_pos_iff.mpr hv
      simp [Flag.args, getOutputBasenameFromFlags, lit_oeq, List.isPrefixOf, Flag.outVal, hlen]
    | emit two n =>
      have key : ∀ two, ∀ n ∈ emitNames, (lit "-o=").isPrefixOf (dashes two ++ n) = false ∧
          (lit "-o").isPrefixOf (dashes two ++ n) = false := by decide +kernel
      obtain ⟨k1, k2⟩ := key two n hf
      simp only [Flag.args, List.cons_append, List.nil_append, getOutputBasenameFromFlags, k1, k2,
        Bool.false_eq_true, if_false]
      rw [ih]; rfl
    | tag two v =>
      have k : (lit "-o=").isPrefixOf (dashes two ++ lit "tag=" ++ v) = false ∧
          (lit "-o").isPrefixOf (dashes two ++ lit "tag=" ++ v) = false := by
        rw [lit_oeq, lit_o, lit_tag]
        cases two <;> simp [dashes, List.isPrefixOf]
      simp only [Flag.args, List.cons_append, List.nil_append, getOutputBasenameFromFlags, k.1, k.2,
        Bool.false_eq_true, if_false]
      rw [ih]; rfl
    | other a =>
      obtain ⟨k1, k2⟩ := other_o hf.1
      simp only [Flag.args, List.cons_append, List.nil_append, getOutputBasenameFromFlags, k1, k2,
        Bool.false_eq_true, if_false]
      rw [ih]; rfl
    | otherVal a v =>
      obtain ⟨k1, k2⟩ := other_o hf.1
      have k3 : (lit "-o=").isPrefixOf v = false := by
        rw [lit_oeq]; exact no_dash_prefix hf.2.2.2.1 _
      have k4 : (lit "-o").isPrefixOf v = false := by
        rw [lit_o]; exact no_dash_prefix hf.2.2.2.1 _
      simp only [Flag.args, List.cons_append, List.nil_append, getOutputBasenameFromFlags, k1, k2,
        k3, k4, Bool.false_eq_true, if_false]
      rw [ih]; rfl

theorem target_eq (takes : Str → Bool) (fs : List Flag) (h : ∀ f ∈ fs, f.Ok takes) :
    getEmissionTargetFromFlags (args fs) = ((fs.filterMap Flag.emitVal).head?).getD .lib := by
  induction fs with
  | nil => rfl
  | cons f fs ih =>
    have ih := ih (fun g hg => h g (by simp [hg]))
    have hf := h f (by simp)
    have hargs : args (f :: fs) = f.args ++ args fs := rfl
    rw [hargs]
    cases f with
    | out v =>
      have k1 : (lit "-Emit").isPrefixOf v = false := by rw [lit_Emit]; exact no_dash_prefix hf.1 _
      have k2 : (lit "--Emit").isPrefixOf v = false := by
        rw [lit_ddEmit]; exact no_dash_prefix hf.1 _
      have k3 : (lit "-Emit").isPrefixOf (lit "-o") = false ∧
          (lit "--Emit").isPrefixOf (lit "-o") = false := by decide +kernel
      simp only [Flag.args, List.cons_append, List.nil_append, getEmissionTargetFromFlags, k1, k2,
        k3.1, k3.2, Bool.or_self, Bool.false_eq_true, if_false]
      rw [ih]; rfl
    | outEq v =>
      have k : (lit "-Emit").isPrefixOf (lit "-o=" ++ v) = false ∧
          (lit "--Emit").isPrefixOf (lit "-o=" ++ v) = false := by
        rw [lit_Emit, lit_ddEmit, lit_oeq]; simp [List.isPrefixOf]
      simp only [Flag.args, List.cons_append, List.nil_append, getEmissionTargetFromFlags, k.1, k.2,
        Bool.or_self, Bool.false_eq_true, if_false]
      rw [ih]; rfl
    | emit two n =>
      have key : ∀ two, ∀ n ∈ emitNames,
          getEmissionTargetFromFlags [dashes two ++ n] = targetOf n ∧
          ((lit "-Emit").isPrefixOf (dashes two ++ n) ||
            (lit "--Emit").isPrefixOf (dashes two ++ n)) = true := by decide +kernel
      obtain ⟨k1, k2⟩ := key two n hf
      simp only [getEmissionTargetFromFlags, k2, if_true] at k1
      simp only [Flag.args, List.cons_append, List.nil_append, getEmissionTargetFromFlags, k2,
        if_true, Flag.emitVal, List.filterMap_cons, List.head?_cons, Option.getD_some]
      exact k1
    | tag two v =>
      have k : (lit "-Emit").isPrefixOf (dashes two ++ lit "tag=" ++ v) = false ∧
          (lit "--Emit").isPrefixOf (dashes two ++ lit "tag=" ++ v) = false := by
        rw [lit_Emit, lit_ddEmit, lit_tag]
        cases two <;> simp [dashes, List.isPrefixOf]
      simp only [Flag.args, List.cons_append, List.nil_append, getEmissionTargetFromFlags, k.1, k.2,
        Bool.or_self, Bool.false_eq_true, if_false]
      rw [ih]; rfl
    | other a =>
      obtain ⟨_, _, _, _, k1, k2, _⟩ := hf.1
      simp only [Flag.args, List.cons_append, List.nil_append, getEmissionTargetFromFlags,
        not_prefix k1, not_prefix k2, Bool.or_self, Bool.false_eq_true, if_false]
      rw [ih]; rfl
    | otherVal a v =>
      obtain ⟨_, _, _, _, k1, k2, _⟩ := hf.1
      have k3 : (lit "-Emit").isPrefixOf v = false := by
        rw [lit_Emit]; exact no_dash_prefix hf.2.2.2.1 _
      have k4 : (lit "--Emit").isPrefixOf v = false := by
        rw [lit_ddEmit]; exact no_dash_prefix hf.2.2.2.1 _
      simp only [Flag.args, List.cons_append, List.nil_append, getEmissionTargetFromFlags,
        not_prefix k1, not_prefix k2, k3, k4, Bool.or_self, Bool.false_eq_true, if_false]
      rw [ih]; rfl

theorem tag_eq (takes : Str → Bool) (fs : List Flag) (h : ∀ f ∈ fs, f.Ok takes) :
    getModelTag (args fs) = ((fs.filterMap Flag.tagVal).head?).getD [] := by
  induction fs with
  | nil => rfl
  | cons f fs ih =>
    have ih := ih (fun g hg => h g (by simp [hg]))
    have hf := h f (by simp)
    have hargs : args (f :: fs) = f.args ++ args fs := rfl
    rw [hargs]
    cases f with
    | out v =>
      have k1 : (lit "--tag=").isPrefixOf v = false := by
        rw [lit_ddtag]; exact no_dash_prefix hf.1 _
      have k2 : (lit "-tag=").isPrefixOf v = false := by
        rw [lit_dtag]; exact no_dash_prefix hf.1 _
      have k3 : (lit "--tag=").isPrefixOf (lit "-o") = false ∧
          (lit "-tag=").isPrefixOf (lit "-o") = false := by decide +kernel
      simp only [Flag.args, List.cons_append, List.nil_append, getModelTag, k1, k2, k3.1, k3.2,
        Bool.false_eq_true, if_false]
      rw [ih]; rfl
    | outEq v =>
      have k : (lit "--tag=").isPrefixOf (lit "-o=" ++ v) = false ∧
          (lit "-tag=").isPrefixOf (lit "-o=" ++ v) = false := by
        rw [lit_ddtag, lit_dtag, lit_oeq]; simp [List.isPrefixOf]
      simp only [Flag.args, List.cons_append, List.nil_append, getModelTag, k.1, k.2,
        Bool.false_eq_true, if_false]
      rw [ih]; rfl
    | emit two n =>
      have key : ∀ two, ∀ n ∈ emitNames, (lit "--tag=").isPrefixOf (dashes two ++ n) = false ∧
          (lit "-tag=").isPrefixOf (dashes two ++ n) = false := by decide +kernel
      obtain ⟨k1, k2⟩ := key two n hf
      simp only [Flag.args, List.cons_append, List.nil_append, getModelTag, k1, k2,
        Bool.false_eq_true, if_false]
      rw [ih]; rfl
    | tag two v =>
      cases two <;>
        simp [Flag.args, getModelTag, dashes, lit_ddtag, lit_dtag, lit_tag, List.isPrefixOf,
          Flag.tagVal]
    | other a =>
      obtain ⟨k1, k2⟩ := other_tag hf.1
      simp only [Flag.args, List.cons_append, List.nil_append, getModelTag, k1, k2,
        Bool.false_eq_true, if_false]
      rw [ih]; rfl
    | otherVal a v =>
      obtain ⟨k1, k2⟩ := other_tag hf.1
      have k3 : (lit "--tag=").isPrefixOf v = false := by
        rw [lit_ddtag]; exact no_dash_prefix hf.2.2.2.1 _
      have k4 : (lit "-tag=").isPrefixOf v = false := by
        rw [lit_dtag]; exact no_dash_prefix hf.2.2.2.1 _
      simp only [Flag.args, List.cons_append, List.nil_append, getModelTag, k1, k2, k3, k4,
        Bool.false_eq_true, if_false]
      rw [ih]; rfl

/-! ## What the compiler reads -/

theorem parseCl_opt (takes : Str → Bool) (a : Str) (rest : List Str) (h1 : a.head? = some '-')
    (h2 : a ≠ ['-']) (h3 : a ≠ ['-', '-']) {n v : Str} (hs : splitEq (strip a) = (n, some v)) :
    parseCl takes (a :: rest) = (parseCl takes rest).map (Item.opt n (some v) :: ·) := by
  rw [parseCl]
  simp [h1, h2, h3, hs]

theorem parseCl_flag (takes : Str → Bool) (a : Str) (rest : List Str) (h1 : a.head? = some '-')
    (h2 : a ≠ ['-']) (h3 : a ≠ ['-', '-']) {n : Str} (hs : splitEq (strip a) = (n, none))
    (ht : takes n = false) :
    parseCl takes (a :: rest) = (parseCl takes rest).map (Item.opt n none :: ·) := by
  rw [parseCl]
  simp [h1, h2, h3, hs, ht]

theorem parseCl_next (takes : Str → Bool) (a v : Str) (rest : List Str) (h1 : a.head? = some '-')
    (h2 : a ≠ ['-']) (h3 : a ≠ ['-', '-']) {n : Str} (hs : splitEq (strip a) = (n, none))
    (ht : takes n = true) :
    parseCl takes (a :: v :: rest) = (parseCl takes rest).map (Item.opt n (some v) :: ·) := by
  rw [parseCl]
  simp [h1, h2, h3, hs, ht]

theorem parseCl_flags (takes : Str → Bool) (htk : TakesOk takes) (fs : List Flag)
    (h : ∀ f ∈ fs, f.Ok takes) (m : Str) (hm : m.head? ≠ some '-') :
    parseCl takes (args fs ++ [m]) = some (fs.map Flag.item ++ [.pos m]) := by
  obtain ⟨t1, t2, t3⟩ := htk
  induction fs with
  | nil =>
    simp only [args, List.flatMap_nil, List.nil_append]
    rw [parseCl, if_pos (.inl hm), parseCl]
    rfl
  | cons f fs ih =>
    have ih := ih (fun g hg => h g (by simp [hg]))
    have hf := h f (by simp)
    have hargs : args (f :: fs) ++ [m] = f.args ++ (args fs ++ [m]) := by simp [args]
    rw [hargs]
    have hl : lit "tag" = ['t', 'a', 'g'] := by decide +kernel
    have ho : lit "o" = ['o'] := by decide +kernel
    cases f with
    | out v =>
      have := parseCl_next takes (lit "-o") v (args fs ++ [m]) (by decide +kernel)
        (by decide +kernel) (by decide +kernel) (n := lit "o") (by decide +kernel) t1
      simp only [Flag.args, List.cons_append, List.nil_append]
      rw [this, ih]; rfl
    | outEq v =>
      have hs : splitEq (strip (lit "-o=" ++ v)) = (lit "o", some v) := by
        rw [lit_oeq, ho]; simp [strip, splitEq, List.dropWhile, List.takeWhile]
      have := parseCl_opt takes (lit "-o=" ++ v) (args fs ++ [m]) (by rw [lit_oeq]; rfl)
        (by rw [lit_oeq]; simp) (by rw [lit_oeq]; simp) hs
      simp only [Flag.args, List.cons_append, List.nil_append]
      rw [this, ih]; rfl
    | emit two n =>
      have key : ∀ two, ∀ n ∈ emitNames, (dashes two ++ n).head? = some '-' ∧
          dashes two ++ n ≠ ['-'] ∧ dashes two ++ n ≠ ['-', '-'] ∧
          splitEq (strip (dashes two ++ n)) = (n, none) := by decide +kernel
      obtain ⟨k1, k2, k3, k4⟩ := key two n hf
      simp only [Flag.args, List.cons_append, List.nil_append]
      rw [parseCl_flag takes _ _ k1 k2 k3 k4 (t3 n hf), ih]; rfl
    | tag two v =>
      have hs : splitEq (strip (dashes two ++ lit "tag=" ++ v)) = (lit "tag", some v) := by
        rw [lit_tag, hl]
        cases two <;> simp [dashes, strip, splitEq, List.dropWhile, List.takeWhile]
      simp only [Flag.args, List.cons_append, List.nil_append]
      rw [parseCl_opt takes _ _ (by cases two <;> rfl) (by
          rw [lit_tag]; cases two <;> simp [dashes]) (by
          rw [lit_tag]; cases two <;> simp [dashes]) hs, ih]; rfl
    | other a =>
      obtain ⟨⟨k1, k2, k3, _⟩, hv⟩ := hf
      simp only [Flag.args, List.cons_append, List.nil_append]
      rcases hs : splitEq (strip a) with ⟨n, v⟩
      cases v with
      | some v =>
        rw [parseCl_opt takes a _ k1 k2 k3 hs, ih]
        simp [Flag.item, hs]
      | none =>
        rw [hs] at hv
        have ht : takes n = false := by simpa using hv
        rw [parseCl_flag takes a _ k1 k2 k3 hs ht, ih]
        simp [Flag.item, hs]
    | otherVal a v =>
      obtain ⟨⟨k1, k2, k3, _⟩, hn, ht, _⟩ := hf
      simp only [Flag.args, List.cons_append, List.nil_append]
      have hs : splitEq (strip a) = ((splitEq (strip a)).1, none) := by rw [← hn]
      rw [parseCl_next takes a v _ k1 k2 k3 hs ht, ih]
      simp [Flag.item]

theorem valuesOf_o (takes : Str → Bool) (fs : List Flag) (h : ∀ f ∈ fs, f.Ok takes) (m : Str) :
    valuesOf (lit "o") (fs.map Flag.item ++ [.pos m]) = fs.filterMap Flag.outVal := by
  have hne : lit "tag" ≠ lit "o" := by decide +kernel
  induction fs with
  | nil => rfl
  | cons f fs ih =>
    have ih := ih (fun g hg => h g (by simp [hg]))
    have hf := h f (by simp)
    unfold valuesOf at ih ⊢
    simp only [List.map_cons, List.cons_append, List.filterMap_cons]
    rw [ih]
    cases f with
    | out v => simp [Flag.item, Flag.outVal]
    | outEq v => simp [Flag.item, Flag.outVal]
    | emit two n => simp [Flag.item, Flag.outVal]
    | tag two v => simp [Flag.item, Flag.outVal, hne]
    | other a =>
      obtain ⟨⟨_, _, _, _, _, _, ho, _⟩, _⟩ := hf
      simp only [Flag.item, Flag.outVal]
      cases (splitEq (strip a)).2 <;> simp [ho]
    | otherVal a v =>
      obtain ⟨⟨_, _, _, _, _, _, ho, _⟩, _⟩ := hf
      simp [Flag.item, Flag.outVal, ho]

theorem valuesOf_tag (takes : Str → Bool) (fs : List Flag) (h : ∀ f ∈ fs, f.Ok takes) (m : Str) :
    valuesOf (lit "tag") (fs.map Flag.item ++ [.pos m]) = fs.filterMap Flag.tagVal := by
  have hne : lit "o" ≠ lit "tag" := by decide +kernel
  induction fs with
  | nil => rfl
  | cons f fs ih =>
    have ih := ih (fun g hg => h g (by simp [hg]))
    have hf := h f (by simp)
    unfold valuesOf at ih ⊢
    simp only [List.map_cons, List.cons_append, List.filterMap_cons]
    rw [ih]
    cases f with
    | out v => simp [Flag.item, Flag.tagVal, hne]
    | outEq v => simp [Flag.item, Flag.tagVal, hne]
    | emit two n => simp [Flag.item, Flag.tagVal]
    | tag two v => simp [Flag.item, Flag.tagVal]
    | other a =>
      obtain ⟨⟨_, _, _, _, _, _, _, ho, _⟩, _⟩ := hf
      simp only [Flag.item, Flag.tagVal]
      cases (splitEq (strip a)).2 <;> simp [ho]
    | otherVal a v =>
      obtain ⟨⟨_, _, _, _, _, _, _, ho, _⟩, _⟩ := hf
      simp [Flag.item, Flag.tagVal, ho]

theorem emitsOf_eq (takes : Str → Bool) (fs : List Flag) (h : ∀ f ∈ fs, f.Ok takes) (m : Str) :
    emitsOf (fs.map Flag.item ++ [.pos m]) = fs.filterMap Flag.emitVal := by
  induction fs with
  | nil => rfl
  | cons f fs ih =>
    have ih := ih (fun g hg => h g (by simp [hg]))
    have hf := h f (by simp)
    unfold emitsOf at ih ⊢
    simp only [List.map_cons, List.cons_append, List.filterMap_cons]
    rw [ih]
    cases f with
    | out v => simp [Flag.item, Flag.emitVal]
    | outEq v => simp [Flag.item, Flag.emitVal]
    | emit two n =>
      have hn : n ∈ emitNames := hf
      simp [Flag.item, Flag.emitVal, hn]
    | tag two v => simp [Flag.item, Flag.emitVal]
    | other a =>
      obtain ⟨⟨_, _, _, _, _, _, _, _, ho⟩, _⟩ := hf
      simp only [Flag.item, Flag.emitVal]
      cases (splitEq (strip a)).2 <;> simp [ho]
    | otherVal a v => simp [Flag.item, Flag.emitVal]

theorem positional_eq (fs : List Flag) (m : Str) :
    positional (fs.map Flag.item ++ [.pos m]) = [m] := by
  induction fs with
  | nil => rfl
  | cons f fs ih =>
    unfold positional at ih ⊢
    simp only [List.map_cons, List.cons_append, List.filterMap_cons]
    rw [ih]
    cases f <;> rfl

theorem single_some {α : Type} {d x : α} {l : List α} (h : single d l = some x) :
    x = l.head?.getD d := by
  match l with
  | [] => simpa [single] using h.symm
  | [y] => simpa [single] using h.symm
  | _ :: _ :: _ => simp [single] at h

/-! ## The compiler and the report agree -/

/-- The base name of the output. -/
def baseOf (fs : List Flag) (m : Str) : Str :=
  ((fs.filterMap Flag.outVal).head?).getD (beforeLastDot m)

theorem outVal_ok (takes : Str → Bool) (fs : List Flag) (h : ∀ f ∈ fs, f.Ok takes) {v : Str}
    (hv : (fs.filterMap Flag.outVal).head? = some v) : v ≠ ['-'] ∧ NamesFile v := by
  have := List.mem_of_mem_head? hv
  obtain ⟨f, hf, e⟩ := List.mem_filterMap.mp this
  have hok := h f hf
  cases f with
  | out w =>
    simp only [Flag.outVal, Option.some.injEq] at e
    subst e
    exact ⟨fun e => hok.1 (by simp [e]), hok.2⟩
  | outEq w =>
    simp only [Flag.outVal, Option.some.injEq] at e
    subst e
    exact hok
  | _ => simp [Flag.outVal] at e

theorem outputBase_eq (takes : Str → Bool) (fs : List Flag) (h : ∀ f ∈ fs, f.Ok takes) (m : Str)
    (hm : m.head? ≠ some '-') :
    outputBase (((fs.filterMap Flag.outVal).head?).getD ['-']) m = baseOf fs m := by
  unfold baseOf outputBase
  cases hv : (fs.filterMap Flag.outVal).head? with
  | none =>
    have : m ≠ ['-'] := fun e => hm (by simp [e])
    simp [this]
  | some v =>
    obtain ⟨h1, c, hc, hcd⟩ := outVal_ok takes fs h hv
    simp only [Option.getD_some]
    rw [if_neg]
    rintro (e | e)
    · exact h1 e
    · rw [List.all_eq_true] at e
      exact hcd (by simpa using e c hc)

theorem getOutputFilename_eq (takes : Str → Bool) (fs : List Flag) (h : ∀ f ∈ fs, f.Ok takes)
    (m : Str) (hm0 : m ≠ []) :
    getOutputFilename m (args fs) =
      getTargetFilename (baseOf fs m) (((fs.filterMap Flag.emitVal).head?).getD .lib) := by
  unfold getOutputFilename
  rw [outBase_eq takes fs h, target_eq takes fs h]
  unfold baseOf
  cases hv : (fs.filterMap Flag.outVal).head? with
  | none => simp [getInputFilename, hm0]
  | some v =>
    have := namesFile_ne (outVal_ok takes fs h hv).2
    simp [this]

theorem compiler_eq (takes : Str → Bool) (htk : TakesOk takes) (fs : List Flag)
    (h : ∀ f ∈ fs, f.Ok takes) (m : Str) (hm : m.head? ≠ some '-') {w : Written}
    (hw : compiler takes (args fs ++ [m]) = some w) :
    w.file = getTargetFilename (baseOf fs m) (((fs.filterMap Flag.emitVal).head?).getD .lib) ∧
      w.target = ((fs.filterMap Flag.emitVal).head?).getD .lib ∧
      w.constants = baseOf fs m ++ lit ".constants.bin" ∧
      ∃ attr, postfixAttr (((fs.filterMap Flag.tagVal).head?).getD []) (baseOf fs m) = some attr ∧
        w.pfx = symbolPostfix attr := by
  unfold compiler at hw
  rw [parseCl_flags takes htk fs h m hm] at hw
  simp only [Option.bind_eq_bind, Option.bind_some, Option.bind_eq_some_iff, pure] at hw
  obtain ⟨o, ho, tag, ht, target, he, input, hi, attr, ha, hw⟩ := hw
  rw [valuesOf_o takes fs h m] at ho
  rw [valuesOf_tag takes fs h m] at ht
  rw [emitsOf_eq takes fs h m] at he
  rw [positional_eq fs m] at hi
  have ho := single_some ho
  have ht := single_some ht
  have he := single_some he
  have hi : m = input := by simpa [single] using hi
  subst hi
  rw [ho, outputBase_eq takes fs h m hm] at hw ha
  rw [Option.some.injEq] at hw
  subst hw
  exact ⟨by rw [he], he, rfl, attr, by rw [← ht]; exact ha, rfl⟩

theorem args_ne (takes : Str → Bool) (fs : List Flag) (h : ∀ f ∈ fs, f.Ok takes) :
    ∀ a ∈ args fs, a ≠ [] := by
  intro a ha
  obtain ⟨f, hf, ha⟩ := List.mem_flatMap.mp ha
  have hok := h f hf
  have ho : lit "-o" ≠ [] := by decide +kernel
  cases f with
  | out v =>
    simp only [Flag.args, List.mem_cons, List.not_mem_nil, or_false] at ha
    rcases ha with rfl | rfl
    · exact ho
    · exact namesFile_ne hok.2
  | outEq v =>
    simp only [Flag.args, List.mem_singleton] at ha
    subst ha; rw [lit_oeq]; simp
  | emit two n =>
    simp only [Flag.args, List.mem_singleton] at ha
    subst ha; cases two <;> simp [dashes]
  | tag two v =>
    simp only [Flag.args, List.mem_singleton] at ha
    subst ha; cases two <;> simp [dashes]
  | other b =>
    simp only [Flag.args, List.mem_singleton] at ha
    subst ha
    intro e
    have := hok.1.1
    rw [e] at this; simp at this
  | otherVal b v =>
    simp only [Flag.args, List.mem_cons, List.not_mem_nil, or_false] at ha
    rcases ha with rfl | rfl
    · intro e
      have := hok.1.1
      rw [e] at this; simp at this
    · exact hok.2.2.2.2

theorem absolutePath_eq (cwd name : Str) (hc : cwd ≠ []) (hc' : cwd.getLast? ≠ some '/')
    (hn : name ≠ []) : absolutePath cwd name = resolve cwd name := by
  unfold absolutePath resolve joinPath
  rw [if_neg hn]
  split
  · rfl
  · rw [if_neg]
    rintro (e | e)
    · exact hc e
    · exact hc' e

theorem getTargetFilename_ne (b : Str) (t : Target) : getTargetFilename b t ≠ [] := by
  have k : lit ".o" ≠ [] ∧ lit ".so" ≠ [] ∧ lit ".jar" ≠ [] ∧ lit ".onnx.mlir" ≠ [] := by
    decide +kernel
  cases t <;> simp [getTargetFilename, k]

/-! ## Symbols -/

/-- A path is its directory and its file name. -/
theorem dir_fileName (b : Str) : ∃ d, b = d ++ Session.fileName b ∧
    (d = [] ∨ d.getLast? = some '/') ∧ '/' ∉ Session.fileName b := by
  refine ⟨(b.reverse.dropWhile (· ≠ '/')).reverse, ?_, ?_, ?_⟩
  · have := congrArg List.reverse (List.takeWhile_append_dropWhile (p := (· ≠ '/')) (l := b.reverse))
    rw [List.reverse_append, List.reverse_reverse] at this
    unfold Session.fileName
    exact this.symm
  · rw [List.getLast?_reverse]
    cases h : b.reverse.dropWhile (· ≠ '/') with
    | nil => exact .inl rfl
    | cons c r =>
      right
      have := List.head?_dropWhile_not (p := (fun c : Char => decide (c ≠ '/'))) (l := b.reverse)
      rw [h] at this
      simp at this
      simp [this]
  · unfold Session.fileName
    rw [List.mem_reverse]
    intro h
    have : ∀ (l : Str), '/' ∉ l.takeWhile (· ≠ '/') := by
      intro l
      induction l with
      | nil => simp
      | cons c l ih =>
        by_cases hc : c = '/'
        · simp [List.takeWhile, hc]
        · simp only [List.takeWhile, ne_eq, hc, not_false_eq_true, decide_true, List.mem_cons,
            not_or]
          exact ⟨fun e => hc e.symm, ih⟩
    exact this _ h

theorem dropExt_mem {b : Str} {c : Char} (h : c ∈ Session.dropExt b) : c ∈ b := by
  unfold Session.dropExt at h
  split at h
  · exact h
  · rename_i x front e
    split at h
    · exact h
    · have h1 : c ∈ b.reverse.dropWhile (· ≠ '.') := by
        rw [e]
        exact List.mem_cons_of_mem _ (List.mem_reverse.mp h)
      exact List.mem_reverse.mp (List.dropWhile_sublist _ |>.mem h1)

theorem lower_valid (t : Str) (h : validTag t = true) : lower t = t := by
  unfold validTag at h
  rw [Bool.and_eq_true, List.all_eq_true] at h
  unfold lower
  have : ∀ c ∈ t, c.toLower = c := by
    intro c hc
    have := h.2 c hc
    unfold Char.toLower
    split
    · rename_i hu
      exfalso
      simp only [Bool.or_eq_true, Bool.and_eq_true, decide_eq_true_eq, beq_iff_eq] at this
      have hv : ∀ x y : Char, x ≤ y ↔ x.val.toNat ≤ y.val.toNat := fun _ _ => Iff.rfl
      have hu1 : 65 ≤ c.val.toNat := by simpa [UInt32.le_iff_toNat_le] using hu.1
      have hu2 : c.val.toNat ≤ 90 := by simpa [UInt32.le_iff_toNat_le] using hu.2
      rcases this with (((⟨h1, h2⟩ | ⟨h1, h2⟩) | rfl) | rfl) | rfl
      · rw [hv] at h2
        have : ('9' : Char).val.toNat = 57 := rfl
        omega
      · rw [hv] at h1
        have : ('a' : Char).val.toNat = 97 := rfl
        omega
      · revert hu; decide
      · revert hu; decide
      · revert hu; decide
    · rfl
  exact (List.map_congr_left this).trans (List.map_id _)

theorem lit_none : lit "none" = "none".toList := by decide +kernel

/-- The suffix of the symbols in the compiled library is the one a session looks for. -/
theorem suffix_agrees (tag base attr dir : Str) (ha : postfixAttr tag base = some attr)
    (hd : dir = [] ∨ dir.getLast? = some '/') :
    Session.lowDash (if tag = [] then Session.stemOf (dir ++ base ++ lit ".so") else tag) =
      symbolPostfix attr := by
  have hso : lit ".so" = '.' :: ['s', 'o'] := by decide +kernel
  have key : ∀ t : Str, (if !isNone t && !validTag t then none
      else if isNone t then some [] else some t) = some attr →
      Session.lowDash t = symbolPostfix attr := by
    intro t h
    unfold Session.lowDash symbolPostfix
    rw [← lit_none]
    by_cases hn : lower t = lit "none"
    · simp [isNone, hn] at h
      simp [hn, ← h]
    · by_cases hv : validTag t = true
      · simp [isNone, hn, hv] at h
        have h0 : t ≠ [] := by
          rintro rfl
          simp [validTag] at hv
        rw [lower_valid t hv] at hn ⊢
        rw [if_neg hn, ← h, if_neg h0, lower_valid t hv]
      · simp [isNone, hn, hv] at h
  unfold postfixAttr at ha
  by_cases ht : tag = []
  · rw [if_pos ht]
    rw [if_pos ht] at ha
    have hb : Session.fileName base ≠ [] := by
      intro e
      rw [e] at ha
      have k : isNone (lower []) = false ∧ validTag (lower []) = false := by decide +kernel
      simp [k] at ha
    obtain ⟨d, h1, h2, h3⟩ := dir_fileName base
    have hst : Session.stemOf (dir ++ base ++ lit ".so") = lower (Session.fileName base) := by
      rw [hso]
      have hcat : dir ++ base ++ '.' :: ['s', 'o'] =
          (dir ++ d) ++ Session.fileName base ++ '.' :: ['s', 'o'] := by
        conv => lhs; rw [h1]
        simp
      rw [hcat]
      refine Session.stemOf_eq (dir ++ d) _ _ ?_ hb h3 (by simp) (by simp) (by simp)
      rcases h2 with rfl | h2
      · simpa using hd
      · right
        cases d with
        | nil => simp at h2
        | cons c d => rw [List.getLast?_append]; simp [h2]
    rw [hst]
    exact key _ ha
  · rw [if_neg ht]
    rw [if_neg ht] at ha
    exact key _ ha

/-! ## The directory for the output -/

theorem applyLoop_skip (dir f : Str) (rest : List Str) (h1 : (lit "-o=").isPrefixOf f = false)
    (h2 : f ≠ lit "-o") :
    applyLoop dir (f :: rest) = (applyLoop dir rest).map (f :: ·) := by
  cases rest with
  | nil => simp [applyLoop, h1]
  | cons v rest =>
    rw [applyLoop]
    simp [h1, h2]

theorem applyLoop_eqForm (dir f : Str) (rest : List Str)
    (h1 : (lit "-o=").isPrefixOf f = true) (h2 : f.length > 3) :
    applyLoop dir (f :: rest) =
      if '/' ∉ f.drop 3 then some ((lit "-o=" ++ joinPath dir (f.drop 3)) :: rest)
      else some (f :: rest) := by
  cases rest with
  | nil => rw [applyLoop, if_pos ⟨h1, h2⟩]
  | cons v rest => rw [applyLoop, if_pos ⟨h1, h2⟩]

theorem ne_o {f : Str} (h : (lit "-o").isPrefixOf f = false) : f ≠ lit "-o" := by
  rintro rfl
  have : (lit "-o").isPrefixOf (lit "-o") = true := by decide +kernel
  rw [this] at h
  cases h

theorem inDir_eq (dir v : Str) (hd : dir ≠ []) :
    inDir dir v = if '/' ∉ v then joinPath dir v else v := by
  unfold inDir joinPath
  by_cases h : '/' ∈ v <;> simp [h, hd]

theorem applyLoop_eq (takes : Str → Bool) (dir : Str) (hd : dir ≠ []) (fs : List Flag)
    (h : ∀ f ∈ fs, f.Ok takes) : applyLoop dir (args fs) = (place dir fs).map args := by
  induction fs with
  | nil => rfl
  | cons f fs ih =>
    have ih := ih (fun g hg => h g (by simp [hg]))
    have hf := h f (by simp)
    have hargs : args (f :: fs) = f.args ++ args fs := rfl
    rw [hargs]
    have hcons : ∀ g : Flag, (place dir fs).map args = applyLoop dir (args fs) →
        ((place dir fs).map (g :: ·)).map args = (applyLoop dir (args fs)).map (g.args ++ ·) := by
      intro g e
      rw [← e, Option.map_map, Option.map_map]
      rfl
    cases f with
    | out v =>
      have k : (lit "-o=").isPrefixOf (lit "-o") = false := by decide +kernel
      simp only [Flag.args, List.cons_append, List.nil_append, applyLoop, k, Bool.false_eq_true,
        false_and, if_false, if_true, place, Option.map_some]
      rw [inDir_eq dir v hd]
      split <;> rfl
    | outEq v =>
      have hv := namesFile_ne hf.2
      have hlen : 0 < v.length := List.length_pos_iff.mpr hv
      have k : (lit "-o=").isPrefixOf (lit "-o=" ++ v) = true ∧ (lit "-o=" ++ v).length > 3 ∧
          (lit "-o=" ++ v).drop 3 = v := by
        rw [lit_oeq]
        refine ⟨by simp [List.isPrefixOf], by simp; omega, rfl⟩
      simp only [Flag.args, List.cons_append, List.nil_append, place, Option.map_some]
      rw [applyLoop_eqForm dir _ _ k.1 k.2.1, k.2.2, inDir_eq dir v hd]
      split <;> rfl
    | emit two n =>
      have key : ∀ two, ∀ n ∈ emitNames, (lit "-o=").isPrefixOf (dashes two ++ n) = false ∧
          (lit "-o").isPrefixOf (dashes two ++ n) = false := by decide +kernel
      obtain ⟨k1, k2⟩ := key two n hf
      simp only [place]
      rw [hcons _ ih.symm]
      simp only [Flag.args, List.cons_append, List.nil_append]
      rw [applyLoop_skip dir _ _ k1 (ne_o k2)]
    | tag two v =>
      have k : (lit "-o=").isPrefixOf (dashes two ++ lit "tag=" ++ v) = false ∧
          (lit "-o").isPrefixOf (dashes two ++ lit "tag=" ++ v) = false := by
        rw [lit_oeq, lit_o, lit_tag]
        cases two <;> simp [dashes, List.isPrefixOf]
      simp only [place]
      rw [hcons _ ih.symm]
      simp only [Flag.args, List.cons_append, List.nil_append]
      rw [applyLoop_skip dir _ _ k.1 (ne_o k.2)]
    | other a =>
      obtain ⟨k1, k2⟩ := other_o hf.1
      simp only [place]
      rw [hcons _ ih.symm]
      simp only [Flag.args, List.cons_append, List.nil_append]
      rw [applyLoop_skip dir _ _ k1 (ne_o k2)]
    | otherVal a v =>
      obtain ⟨k1, k2⟩ := other_o hf.1
      have k3 : (lit "-o=").isPrefixOf v = false := by
        rw [lit_oeq]; exact no_dash_prefix hf.2.2.2.1 _
      have k4 : (lit "-o").isPrefixOf v = false := by
        rw [lit_o]; exact no_dash_prefix hf.2.2.2.1 _
      simp only [place]
      rw [hcons _ ih.symm]
      simp only [Flag.args, List.cons_append, List.nil_append]
      rw [applyLoop_skip dir _ _ k1 (ne_o k2), applyLoop_skip dir _ _ k3 (ne_o k4), Option.map_map]
      rfl

theorem applyOutputPath_eq (takes : Str → Bool) (dir m : Str) (fs : List Flag)
    (h : ∀ f ∈ fs, f.Ok takes) (hs : '/' ∉ Session.dropExt (Session.fileName m)) :
    applyOutputPath (args fs) dir m =
      args (placed dir (Session.dropExt (Session.fileName m)) fs) := by
  unfold applyOutputPath placed
  split
  · rfl
  · rename_i hd
    rw [applyLoop_eq takes dir hd fs h]
    cases hp : place dir fs with
    | none =>
      simp only [Option.map_none]
      rw [inDir_eq dir _ hd, if_pos hs]
      simp [args, Flag.args]
    | some fs' => rfl

theorem takeWhile_head (p : Char → Bool) (a b : Str) {c : Char} (hc : c ∈ a.takeWhile p) :
    c ∈ (a ++ b).takeWhile p := by
  induction a with
  | nil => simp at hc
  | cons x a ih =>
    by_cases hx : p x = true
    · simp only [List.takeWhile, hx, List.mem_cons, List.cons_append] at hc ⊢
      rcases hc with h | h
      · exact .inl h
      · exact .inr (ih h)
    · simp [List.takeWhile, hx] at hc

theorem inDir_ok {dir v : Str} (hd : dir ≠ []) (hdash : dir.head? ≠ some '-')
    (hv : v ≠ ['-']) (hv' : '/' ∈ v → v.head? ≠ some '-') (hn : NamesFile v) :
    (inDir dir v).head? ≠ some '-' ∧ NamesFile (inDir dir v) := by
  unfold inDir
  split
  · rename_i h
    exact ⟨hv' h, hn⟩
  · obtain ⟨c, hc, hcd⟩ := hn
    split
    · refine ⟨?_, c, ?_, hcd⟩
      · cases dir with
        | nil => exact (hd rfl).elim
        | cons x d => simpa using hdash
      · rw [List.reverse_append]
        exact takeWhile_head _ _ _ hc
    · refine ⟨?_, c, ?_, hcd⟩
      · cases dir with
        | nil => exact (hd rfl).elim
        | cons x d => simpa using hdash
      · have : (dir ++ '/' :: v).reverse = v.reverse ++ ('/' :: dir.reverse) := by simp
        rw [this]
        exact takeWhile_head _ _ _ hc

theorem inDir_ok' {dir v : Str} (hd : dir ≠ []) (hv : v ≠ ['-']) (hn : NamesFile v) :
    inDir dir v ≠ ['-'] ∧ NamesFile (inDir dir v) := by
  unfold inDir
  split
  · exact ⟨hv, hn⟩
  · obtain ⟨c, hc, hcd⟩ := hn
    have hv0 : v ≠ [] := by rintro rfl; simp at hc
    split
    · refine ⟨?_, c, ?_, hcd⟩
      · intro e
        have := congrArg List.length e
        have h1 := List.length_pos_iff.mpr hd
        have h2 := List.length_pos_iff.mpr hv0
        simp at this; omega
      · rw [List.reverse_append]
        exact takeWhile_head _ _ _ hc
    · refine ⟨?_, c, ?_, hcd⟩
      · intro e
        have := congrArg List.length e
        have h1 := List.length_pos_iff.mpr hd
        simp at this; omega
      · have : (dir ++ '/' :: v).reverse = v.reverse ++ ('/' :: dir.reverse) := by simp
        rw [this]
        exact takeWhile_head _ _ _ hc

theorem place_ok (takes : Str → Bool) (dir : Str) (hd : dir ≠ []) (hdash : dir.head? ≠ some '-')
    (fs : List Flag) (h : ∀ f ∈ fs, f.Ok takes) {fs' : List Flag} (hp : place dir fs = some fs') :
    ∀ f ∈ fs', f.Ok takes := by
  induction fs generalizing fs' with
  | nil => simp [place] at hp
  | cons g gs ih =>
    have hg := h g (by simp)
    have hgs : ∀ f ∈ gs, f.Ok takes := fun f hf => h f (by simp [hf])
    have hskip : ∀ (x : Option (List Flag)), x = place dir gs → x.map (g :: ·) = some fs' →
        ∀ f ∈ fs', f.Ok takes := by
      intro x hx e f hf
      cases hx' : x with
      | none => simp [hx'] at e
      | some l =>
        rw [hx'] at e hx
        simp only [Option.map_some, Option.some.injEq] at e
        subst e
        rcases List.mem_cons.mp hf with rfl | hf
        · exact hg
        · exact ih hgs hx.symm f hf
    cases g with
    | out v =>
      simp only [place, Option.some.injEq] at hp
      subst hp
      intro f hf
      rcases List.mem_cons.mp hf with rfl | hf
      · exact inDir_ok hd hdash (fun e => hg.1 (by simp [e])) (fun _ => hg.1) hg.2
      · exact hgs f hf
    | outEq v =>
      simp only [place, Option.some.injEq] at hp
      subst hp
      intro f hf
      rcases List.mem_cons.mp hf with rfl | hf
      · exact inDir_ok' hd hg.1 hg.2
      · exact hgs f hf
    | emit two n => exact hskip _ rfl hp
    | tag two v => exact hskip _ rfl hp
    | other a => exact hskip _ rfl hp
    | otherVal a v => exact hskip _ rfl hp

theorem placed_ok (takes : Str → Bool) (dir stem : Str) (hdash : dir.head? ≠ some '-')
    (hs : NamesFile stem) (hs' : '/' ∉ stem) (hs'' : stem ≠ ['-'])
    (fs : List Flag) (h : ∀ f ∈ fs, f.Ok takes) :
    ∀ f ∈ placed dir stem fs, f.Ok takes := by
  unfold placed
  split
  · exact h
  · rename_i hd
    cases hp : place dir fs with
    | none =>
      intro f hf
      rcases List.mem_append.mp hf with hf | hf
      · exact h f hf
      · rw [List.mem_singleton] at hf
        subst hf
        exact inDir_ok hd hdash hs'' (fun e => (hs' e).elim) hs
    | some fs' => exact place_ok takes dir hd hdash fs h hp

/-! ## Containers -/

theorem shWords_ne (s : Str) : shWords s ≠ [] := by
  fun_induction shWords s <;> simp

theorem safe_facts {c : Char} (h : Safe c) : c ≠ ' ' ∧ c ≠ '\\' := by
  constructor <;> (rintro rfl; exact h (by decide +kernel))

/-- Words in front. -/
def push (f : Str) : List Str → List Str
  | [] => [f]
  | w :: ws => (f ++ w) :: ws

theorem shWords_safe (c : Char) (s : Str) (hc : c ≠ ' ') (hb : c ≠ '\\') :
    shWords (c :: s) = push [c] (shWords s) := by
  cases s with
  | nil =>
    rw [shWords.eq_4]
    · simp [hc, push]
      cases shWords [] <;> rfl
    · intro e; exact (hb e).elim
    · intro x s e; exact (hb e).elim
  | cons d s =>
    rw [shWords.eq_4]
    · rw [if_neg hc]
      cases shWords (d :: s) <;> rfl
    · intro e; exact (hb e).elim
    · intro x s e; exact (hb e).elim

theorem shWords_escaped (f s : Str) (hf : ∀ c ∈ f, Safe c) :
    shWords (escapeFlag f ++ s) = push f (shWords s) := by
  induction f with
  | nil =>
    simp only [escapeFlag, List.flatMap_nil, List.nil_append]
    have := shWords_ne s
    cases h : shWords s with
    | nil => exact (this h).elim
    | cons w ws => rfl
  | cons c f ih =>
    have ih := ih (fun d hd => hf d (by simp [hd]))
    have hpush : ∀ (a b : Str) (l : List Str), l ≠ [] → push a (push b l) = push (a ++ b) l := by
      intro a b l hl
      cases l with
      | nil => exact (hl rfl).elim
      | cons w ws => simp [push]
    have hne := shWords_ne s
    unfold escapeFlag at ih ⊢
    rw [List.flatMap_cons, List.append_assoc]
    by_cases hq : c = '"'
    · subst hq
      simp only [if_true, List.cons_append, List.nil_append]
      rw [shWords, ih]
      cases hs : shWords s with
      | nil => exact (hne hs).elim
      | cons w ws => rfl
    · obtain ⟨h1, h2⟩ := safe_facts (hf c (by simp))
      rw [if_neg hq, List.cons_append, List.nil_append, shWords_safe c _ h1 h2, ih,
        hpush _ _ _ hne]
      rfl

theorem shWords_plain (f s : Str) (hf : ∀ c ∈ f, Safe c) :
    shWords (f ++ s) = push f (shWords s) := by
  have hne := shWords_ne s
  induction f with
  | nil =>
    cases h : shWords s with
    | nil => exact (hne h).elim
    | cons w ws => simp [h, push]
  | cons c f ih =>
    obtain ⟨h1, h2⟩ := safe_facts (hf c (by simp))
    rw [List.cons_append, shWords_safe c _ h1 h2, ih (fun d hd => hf d (by simp [hd]))]
    cases h : shWords s with
    | nil => exact (hne h).elim
    | cons w ws => rfl

theorem shWords_space (s : Str) : shWords (' ' :: s) = [] :: shWords s := by
  cases s with
  | nil => simp [shWords]
  | cons d s =>
    rw [shWords.eq_4]
    · simp
    · intro e; simp at e
    · intro x s e; simp at e

theorem containerCmd_words (c : Str) (flags : List Str) (input : Str) (hc : ∀ x ∈ c, Safe x)
    (hf : ∀ f ∈ flags, ∀ x ∈ f, Safe x) (hi : ∀ x ∈ input, Safe x) :
    shWords (containerCmd c flags input) = c :: flags ++ [input] := by
  have hin : shWords (' ' :: input) = [[], input] := by
    rw [shWords_space]
    have := shWords_plain input [] hi
    rw [List.append_nil] at this
    rw [this]
    simp [shWords, push]
  have htail : shWords (flags.flatMap (fun f => ' ' :: escapeFlag f) ++ ' ' :: input) =
      [] :: flags ++ [input] := by
    induction flags with
    | nil => simpa using hin
    | cons f fs ih =>
      have ih := ih (fun g hg => hf g (by simp [hg]))
      rw [List.flatMap_cons, List.append_assoc, List.cons_append, shWords_space,
        shWords_escaped f _ (hf f (by simp)), ih]
      simp [push]
  unfold containerCmd
  rw [List.append_assoc, shWords_plain c _ hc, htail]
  simp [push]

end Verif.Driver
