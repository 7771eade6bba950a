import Verif.Signature.Lemmas
/-!
# Signatures: the descriptions are JSON (C110)
-/
namespace Verif.Signature

/-! ## The descriptions are texts of these values -/

theorem isSpace_space : IsSpace [' '] := by simp [IsSpace]

theorem JText.pre {v : Json} {s : Str} (h : JText v s) : JText v (' ' :: s) := by
  simpa using JText.space (a := [' ']) (b := []) isSpace_space (by simp [IsSpace]) h

theorem JText.post {v : Json} {s : Str} (h : JText v s) : JText v (s ++ [' ']) := by
  simpa using JText.space (a := []) (b := [' ']) (by simp [IsSpace]) isSpace_space h

theorem jitems_sepBy (ps : List (Json × Str)) (hne : ps ≠ []) (h : ∀ p ∈ ps, JText p.1 p.2) :
    JItems (ps.map Prod.fst) (sepBy (lit " , ") (ps.map Prod.snd)) ∧
      JItems (ps.map Prod.fst) (' ' :: sepBy (lit " , ") (ps.map Prod.snd)) := by
  have e : lit " , " = [' ', ',', ' '] := by decide +kernel
  induction ps with
  | nil => exact absurd rfl hne
  | cons p ps ih =>
    have hp := h p (by simp)
    cases ps with
    | nil => exact ⟨JItems.one hp, JItems.one hp.pre⟩
    | cons q qs =>
      obtain ⟨_, h2⟩ := ih (by simp) (fun r hr => h r (by simp [hr]))
      have h3 := JItems.more hp.post h2
      have h4 := JItems.more hp.post.pre h2
      simp only [List.map_cons, sepBy] at h3 h4 ⊢
      rw [e] at h3 h4 ⊢
      exact ⟨by simpa using h3, by simpa using h4⟩

theorem JItems.after {b : Str} (hb : IsSpace b) : ∀ {vs : List Json} {s : Str}, JItems vs s →
    JItems vs (s ++ b)
  | _, _, .one h => .one (by simpa using JText.space (a := []) (by simp [IsSpace]) hb h)
  | _, _, .more h1 h2 => by simpa using JItems.more h1 (JItems.after hb h2)

theorem JItems.before {a : Str} (ha : IsSpace a) {vs : List Json} {s : Str} (h : JItems vs s) :
    JItems vs (a ++ s) := by
  cases h with
  | one h => exact .one (by simpa using JText.space (b := []) ha (by simp [IsSpace]) h)
  | more h1 h2 =>
    have := JItems.more (JText.space (b := []) ha (by simp [IsSpace]) h1) h2
    simpa using this

/-- The texts of the elements give the text of the array. -/
theorem jtext_arr (ps : List (Json × Str)) (h : ∀ p ∈ ps, JText p.1 p.2) (a b : Str)
    (ha : IsSpace a) (hb : IsSpace b) :
    JText (.arr (ps.map Prod.fst))
      ('[' :: (a ++ sepBy (lit " , ") (ps.map Prod.snd) ++ b) ++ [']']) := by
  cases ps with
  | nil =>
    have : IsSpace (a ++ b) := by
      intro c hc
      rcases List.mem_append.mp hc with h | h
      · exact ha c h
      · exact hb c h
    simpa [sepBy] using JText.arrNil this
  | cons p ps => exact .arr (((jitems_sepBy (p :: ps) (by simp) h).1.before ha).after hb)

theorem plain_lits : PlainChars (lit "type") ∧ PlainChars (lit "dims") ∧ PlainChars (lit "name") ∧
    PlainChars (lit "seq") ∧ PlainChars (lit "string") := by
  unfold PlainChars; decide +kernel

theorem plain_elem : ∀ T ∈ elemTypes, PlainChars T := by unfold PlainChars; decide +kernel

theorem tensor_json (elem : Str) (dims : List Int) (name : Str) (he : PlainChars elem)
    (hn : PlainChars name) :
    JText (tensorJson elem dims name) (tensorText (jsonString elem) dims name) := by
  obtain ⟨p1, p2, p3, _⟩ := plain_lits
  have hd : JText (.arr (dims.map Json.num)) (dimsText dims) := by
    have := jtext_arr (dims.map fun d => (Json.num d, decimal d)) (by
      intro p hp
      obtain ⟨d, _, rfl⟩ := List.mem_map.mp hp
      exact .num d) [] [] (by simp [IsSpace]) (by simp [IsSpace])
    have e7 : lit "[" = ['['] := by decide +kernel
    have e8 : lit "]" = [']'] := by decide +kernel
    simpa [dimsText, e7, e8, List.map_map, Function.comp_def] using this
  have m := JMembers.more (JText.str p1).post.pre (JText.str he).post.pre
    (JMembers.more (JText.str p2).post.pre hd.post.pre
      (JMembers.one (JText.str p3).post.pre (JText.str hn).post.pre))
  have o := JText.space (a := [' ', ' ', ' ']) (b := ['\n']) (by simp [IsSpace])
    (by simp [IsSpace]) (JText.obj m)
  have sh := tensorText_shape (jsonString elem) dims name []
  have e1 : lit "   { \"type\" :" = ' ' :: ' ' :: ' ' :: '{' :: ' ' ::
      (jsonString (lit "type") ++ [' ', ':']) := by decide +kernel
  have e2 : lit ", \"dims\" :" = ',' :: ' ' :: (jsonString (lit "dims") ++ [' ', ':']) := by
    decide +kernel
  have e3 : lit ", \"name\" :" = ',' :: ' ' :: (jsonString (lit "name") ++ [' ', ':']) := by
    decide +kernel
  have e4 : lit "}\n" = ['}', '\n'] := by decide +kernel
  rw [List.append_nil, e1, e2, e3, e4] at sh
  rw [sh]
  simpa [tensorJson] using o

theorem object_json (name : Str) (hn : PlainChars name) (t : Ty) (ht : t.Known) :
    JText (objectJson name t) (objectText name t) := by
  induction t with
  | tensor elem dims => exact tensor_json elem dims name (plain_elem elem ht) hn
  | strings dims => exact tensor_json _ dims name plain_lits.2.2.2.2 hn
  | seq t ih =>
    have m := JMembers.one (JText.str plain_lits.2.2.2.1).post (ih ht).post.pre
    have o := JText.space (a := [' ', ' ', ' ']) (b := ['\n']) (by simp [IsSpace])
      (by simp [IsSpace]) (JText.obj m)
    have e1 : lit "   {\"seq\" : " = ' ' :: ' ' :: ' ' :: '{' ::
        (jsonString (lit "seq") ++ [' ', ':', ' ']) := by decide +kernel
    have e2 : lit " }\n" = [' ', '}', '\n'] := by decide +kernel
    rw [objectText, e1, e2, objectJson]
    simpa using o

theorem objects_json (xs : List (Ty × Str)) (hx : ∀ x ∈ xs, x.1.Known ∧ PlainChars x.2)
    (a : Str) (ha : IsSpace a) :
    JText (listJson xs)
      ('[' :: (a ++ sepBy (lit " , ") (xs.map fun x => objectText x.2 x.1) ++ ['\n']) ++ [']']) := by
  have := jtext_arr (xs.map fun x => (objectJson x.2 x.1, objectText x.2 x.1)) (by
    intro p hp
    obtain ⟨x, hxm, rfl⟩ := List.mem_map.mp hp
    exact object_json x.2 (hx x hxm).2 x.1 (hx x hxm).1) a ['\n'] ha (by simp [IsSpace])
  rw [List.map_map, List.map_map] at this
  exact this

theorem input_json (xs : List (Ty × Str)) (hx : ∀ x ∈ xs, x.1.Known ∧ PlainChars x.2) :
    JText (listJson xs) (inputText xs) := by
  have e1 : lit "[ " = ['[', ' '] := by decide +kernel
  have e2 : lit "\n]" = ['\n', ']'] := by decide +kernel
  have := objects_json xs hx [' '] isSpace_space
  rw [inputText, e1, e2]
  simpa using this

theorem output_json (xs : List (Ty × Str)) (hx : ∀ x ∈ xs, x.1.Known ∧ PlainChars x.2) :
    JText (listJson xs) (outputText xs) := by
  have e1 : lit "[" = ['['] := by decide +kernel
  have e2 : lit "\n]" = ['\n', ']'] := by decide +kernel
  have := objects_json xs hx [] (by simp [IsSpace])
  rw [outputText, e1, e2]
  simpa using this

end Verif.Signature
