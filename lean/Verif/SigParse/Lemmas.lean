import Verif.SigParse.Model
import Verif.OpStats.Lemmas
/-!
# Reading signatures at run time: lemmas (C128)
-/
namespace Verif.SigParse

open Verif.Signature (Str lit Ty decimal natText digit sepBy jsonString tensorText objectText
  inputText elemTypes natText_chars)

/-! ## Characters -/

theorem skipWS_ws (c : Char) (s : Str) (h : isWs c = true) : skipWS (c :: s) = skipWS s := by
  simp [skipWS, h]

theorem skipWS_not (c : Char) (s : Str) (h : isWs c = false) : skipWS (c :: s) = c :: s := by
  simp [skipWS, h]

theorem consume_ws (w : Char) (s : Str) (c : Char) (h : isWs w = true) :
    consume (w :: s) c = consume s c := by
  unfold consume; rw [skipWS_ws w s h]

theorem consume_here (s : Str) (c : Char) (h : isWs c = false) : consume (c :: s) c = some s := by
  unfold consume; rw [skipWS_not c s h]; simp

theorem parseStr_ws (w : Char) (s : Str) (h : isWs w = true) : parseStr (w :: s) = parseStr s := by
  unfold parseStr; rw [skipWS_ws w s h]

theorem parseStr_here (n r : Str) (h : '"' ∉ n) : parseStr ('"' :: (n ++ '"' :: r)) = some (n, r) := by
  unfold parseStr
  rw [skipWS_not _ _ (by decide)]
  have hm : '"' ∈ n ++ '"' :: r := by simp
  have hp : ∀ c ∈ n, (c != '"') = true := by
    intro c hc
    simp only [bne_iff_ne, ne_eq]
    intro e
    exact h (e ▸ hc)
  simp only [if_true, hm]
  rw [List.takeWhile_append_of_pos hp, List.dropWhile_append_of_pos hp]
  simp

/-! ## Numbers -/

theorem isDigit_of_lit (c : Char) (h : c ∈ lit "0123456789") : isDigit c = true := by
  have e : lit "0123456789" = ['0', '1', '2', '3', '4', '5', '6', '7', '8', '9'] := by
    decide +kernel
  rw [e] at h
  simp only [List.mem_cons, List.not_mem_nil, or_false] at h
  rcases h with rfl | rfl | rfl | rfl | rfl | rfl | rfl | rfl | rfl | rfl <;> decide

theorem digit_facts (c : Char) (h : isDigit c = true) :
    isWs c = false ∧ c ≠ '-' ∧ c ≠ '+' ∧ c ≠ ']' ∧ c ≠ ',' := by
  have h' : 48 ≤ c.toNat ∧ c.toNat ≤ 57 := by simpa [isDigit] using h
  have ne : ∀ x : Char, (x.toNat < 48 ∨ 57 < x.toNat) → c ≠ x := by
    intro x hx e
    subst e
    omega
  refine ⟨?_, ne _ (by decide), ne _ (by decide), ne _ (by decide), ne _ (by decide)⟩
  have a := ne ' ' (by decide)
  have b := ne '\t' (by decide)
  have d := ne '\n' (by decide)
  have f := ne '\r' (by decide)
  simp [isWs, a, b, d, f]

theorem natText_ne (fuel n : Nat) : natText (fuel + 1) n ≠ [] := by
  unfold natText
  split <;> simp

theorem digits_natText (neg : Bool) (fuel n : Nat) (hn : n < fuel) (rest : Str)
    (hr : ∀ c r, rest = c :: r → isDigit c = false) :
    digits neg (natText fuel n ++ rest) =
      some (clamp (if neg then -(n : Int) else (n : Int)), rest) := by
  have hd : ∀ c ∈ natText fuel n, isDigit c = true := fun c hc =>
    isDigit_of_lit c (natText_chars fuel n c hc)
  have h0 : rest.takeWhile isDigit = [] ∧ rest.dropWhile isDigit = rest := by
    cases rest with
    | nil => exact ⟨rfl, rfl⟩
    | cons c r =>
      have := hr c r rfl
      simp [this]
  have ht : (natText fuel n ++ rest).takeWhile isDigit = natText fuel n := by
    rw [List.takeWhile_append_of_pos hd, h0.1, List.append_nil]
  have hdr : (natText fuel n ++ rest).dropWhile isDigit = rest := by
    rw [List.dropWhile_append_of_pos hd, h0.2]
  have hv : number (natText fuel n) = n := Verif.OpStats.natText_value fuel n hn
  obtain ⟨k, rfl⟩ : ∃ k, fuel = k + 1 := ⟨fuel - 1, by omega⟩
  unfold digits
  rw [ht, hdr]
  cases hx : natText (k + 1) n with
  | nil => exact absurd hx (natText_ne k n)
  | cons d ds =>
    rw [hx] at hv
    simp only [hv]

theorem clamp_id (d : Int) (h : -(2 ^ 63) ≤ d ∧ d < 2 ^ 63) : clamp d = d := by
  unfold clamp
  omega

/-- The first character of a number. -/
theorem decimal_head (d : Int) : ∃ c r, decimal d = c :: r ∧ isWs c = false ∧ c ≠ ']' ∧ c ≠ ',' := by
  unfold decimal
  split
  · exact ⟨'-', _, rfl, by decide, by decide, by decide⟩
  · cases hx : natText (d.natAbs + 1) d.natAbs with
    | nil => exact absurd hx (natText_ne _ _)
    | cons c r =>
      have hc : c ∈ natText (d.natAbs + 1) d.natAbs := by rw [hx]; simp
      obtain ⟨a, -, -, b, e⟩ := digit_facts c (isDigit_of_lit c (natText_chars _ _ c hc))
      exact ⟨c, r, rfl, a, b, e⟩

theorem parseInt_decimal (d : Int) (h : -(2 ^ 63) ≤ d ∧ d < 2 ^ 63) (rest : Str)
    (hr : ∀ c r, rest = c :: r → isDigit c = false) :
    parseInt (decimal d ++ rest) = some (d, rest) := by
  unfold decimal
  split
  · rename_i hneg
    unfold parseInt
    rw [List.cons_append, skipWS_not _ _ (by decide)]
    simp only [if_true]
    rw [digits_natText true _ _ (by omega) rest hr]
    simp only [if_true]
    rw [show (-(d.natAbs : Int)) = d by omega, clamp_id d h]
  · rename_i hneg
    cases hx : natText (d.natAbs + 1) d.natAbs with
    | nil => exact absurd hx (natText_ne _ _)
    | cons c r =>
      have hc : c ∈ natText (d.natAbs + 1) d.natAbs := by rw [hx]; simp
      obtain ⟨a, b1, b2, -, -⟩ := digit_facts c (isDigit_of_lit c (natText_chars _ _ c hc))
      unfold parseInt
      rw [List.cons_append, skipWS_not _ _ a]
      simp only [b1, b2, if_false]
      rw [← List.cons_append, ← hx, digits_natText false _ _ (by omega) rest hr]
      simp only [Bool.false_eq_true, if_false]
      rw [show ((d.natAbs : Nat) : Int) = d by omega, clamp_id d h]

/-! ## Dimensions -/

theorem dims_ws (fuel : Nat) (s : Str) (acc : List Int) :
    dimsLoop fuel (' ' :: s) acc = dimsLoop fuel s acc := by
  cases fuel with
  | zero => rfl
  | succ f => unfold dimsLoop; rw [skipWS_ws _ _ (by decide)]

theorem dims_number (fuel : Nat) (d : Int) (h : -(2 ^ 63) ≤ d ∧ d < 2 ^ 63) (rest : Str)
    (hr : ∀ c r, rest = c :: r → isDigit c = false) (acc : List Int) :
    dimsLoop (fuel + 1) (decimal d ++ rest) acc = dimsLoop fuel rest (acc ++ [d]) := by
  obtain ⟨c, r, e, w, n1, n2⟩ := decimal_head d
  have hp := parseInt_decimal d h rest hr
  rw [e] at hp ⊢
  rw [dimsLoop, List.cons_append, skipWS_not _ _ w]
  simp only [n1, n2, if_false]
  rw [← List.cons_append, hp]

theorem dimsLoop_eq (ds : List Int) (h : Fits ds) (fuel : Nat) (rest : Str) (acc : List Int)
    (hf : (sepBy [' ', ',', ' '] (ds.map decimal) ++ ']' :: rest).length < fuel) :
    dimsLoop fuel (sepBy [' ', ',', ' '] (ds.map decimal) ++ ']' :: rest) acc =
      some (acc ++ ds, rest) := by
  induction ds generalizing fuel acc with
  | nil =>
    cases fuel with
    | zero => omega
    | succ f =>
      simp only [List.map_nil, sepBy, List.nil_append]
      rw [dimsLoop, skipWS_not _ _ (by decide)]
      simp
  | cons d ds ih =>
    have hd := h d (by simp)
    cases ds with
    | nil =>
      simp only [List.map_cons, List.map_nil, sepBy, List.length_append, List.length_cons] at hf ⊢
      obtain ⟨c, r, e, -⟩ := decimal_head d
      rw [e, List.length_cons] at hf
      obtain ⟨f, rfl⟩ : ∃ f, fuel = f + 2 := ⟨fuel - 2, by omega⟩
      rw [dims_number (f + 1) d hd _ (by
        intro c r e
        obtain ⟨rfl, -⟩ := List.cons.inj e
        decide)]
      rw [dimsLoop, skipWS_not _ _ (by decide)]
      simp
    | cons d2 ds =>
      simp only [List.map_cons, sepBy, List.length_append, List.length_cons] at hf ⊢
      obtain ⟨c, r, e, -⟩ := decimal_head d
      rw [e, List.length_cons] at hf
      obtain ⟨f, rfl⟩ : ∃ f, fuel = f + 2 := ⟨fuel - 2, by omega⟩
      simp only [List.append_assoc, List.cons_append, List.nil_append]
      rw [dims_number (f + 1) d hd _ (by
        intro c r e
        obtain ⟨rfl, -⟩ := List.cons.inj e
        decide)]
      rw [dims_ws, dimsLoop, skipWS_not _ _ (by decide)]
      simp only [show ¬ (',' : Char) = ']' by decide, if_false, if_true]
      rw [dims_ws]
      have := ih (fun x hx => h x (by simp [hx])) f (acc ++ [d]) (by
        simp only [List.map_cons, List.length_append, List.length_cons] at hf ⊢
        simp only [List.length_nil] at hf
        omega)
      simp only [List.map_cons] at this
      rw [this]
      simp

/-! ## Objects -/

theorem field_ws (fuel : Nat) (s : Str) (e : SigEntry) :
    fieldLoop fuel (' ' :: s) e = fieldLoop fuel s e := by
  cases fuel with
  | zero => rfl
  | succ f => unfold fieldLoop; rw [skipWS_ws _ _ (by decide)]

theorem field_comma (fuel : Nat) (s : Str) (e : SigEntry) :
    fieldLoop (fuel + 1) (',' :: s) e = fieldLoop fuel s e := by
  rw [fieldLoop, skipWS_not _ _ (by decide)]
  simp

theorem field_end (fuel : Nat) (s : Str) (e : SigEntry) :
    fieldLoop (fuel + 1) ('}' :: s) e = some (e, s) := by
  rw [fieldLoop, skipWS_not _ _ (by decide)]
  simp

/-- A member with its key. -/
theorem field_member (fuel : Nat) (key s : Str) (e : SigEntry) (h : '"' ∉ key) :
    fieldLoop (fuel + 1) ('"' :: (key ++ '"' :: ' ' :: ':' :: s)) e =
      match field fuel key s e with
      | none => none
      | some q => fieldLoop fuel q.2 q.1 := by
  rw [fieldLoop, skipWS_not _ _ (by decide)]
  simp only [show ¬ ('"' : Char) = '}' by decide, show ¬ ('"' : Char) = ',' by decide, if_false]
  rw [parseStr_here key _ h]
  simp only
  rw [consume_ws _ _ _ (by decide), consume_here _ _ (by decide)]
  rfl

/-- The text of an object after its opening brace, and the new line. -/
def body (ty : Str) (dims : List Int) (name : Str) : Str :=
  ' ' :: '"' :: (lit "type" ++ '"' :: ' ' :: ':' :: ' ' :: '"' :: (ty ++ '"' :: ' ' :: ',' :: ' ' ::
    '"' :: (lit "dims" ++ '"' :: ' ' :: ':' :: ' ' :: '[' ::
      (sepBy [' ', ',', ' '] (dims.map decimal) ++ ']' :: ' ' :: ',' :: ' ' ::
        '"' :: (lit "name" ++ '"' :: ' ' :: ':' :: ' ' :: '"' :: (name ++ '"' :: ' ' :: '}' ::
          ['\n']))))))

theorem tensorText_body (ty : Str) (dims : List Int) (name : Str) :
    tensorText (jsonString ty) dims name = ' ' :: ' ' :: ' ' :: '{' :: body ty dims name := by
  have e0 : lit " , " = [' ', ',', ' '] := by decide +kernel
  have e1 : lit "   { \"type\" : " = ' ' :: ' ' :: ' ' :: '{' :: ' ' :: '"' ::
      (lit "type" ++ ['"', ' ', ':', ' ']) := by decide +kernel
  have e2 : lit " , \"dims\" : [" = ' ' :: ',' :: ' ' :: '"' ::
      (lit "dims" ++ ['"', ' ', ':', ' ', '[']) := by decide +kernel
  have e3 : lit "] , \"name\" : " = ']' :: ' ' :: ',' :: ' ' :: '"' ::
      (lit "name" ++ ['"', ' ', ':', ' ']) := by decide +kernel
  have e4 : lit " }\n" = [' ', '}', '\n'] := by decide +kernel
  unfold tensorText body jsonString
  rw [e0, e1, e2, e3, e4]
  simp

theorem keys_ne : lit "dims" ≠ lit "type" ∧ lit "name" ≠ lit "type" ∧ lit "name" ≠ lit "dims" ∧
    '"' ∉ lit "type" ∧ '"' ∉ lit "dims" ∧ '"' ∉ lit "name" := by decide +kernel

theorem fieldLoop_eq (ty : Str) (dims : List Int) (name : Str) (code : Nat) (hty : '"' ∉ ty)
    (hname : '"' ∉ name) (hd : Fits dims) (hc : typeCode ty = code) (h0 : code ≠ 0) (fuel : Nat)
    (rest : Str) (hf : (body ty dims name).length + rest.length < fuel) :
    fieldLoop fuel (body ty dims name ++ rest) { type := none, dims := [] } =
      some ({ type := some code, dims := dims }, '\n' :: rest) := by
  obtain ⟨k1, k2, k3, q1, q2, q3⟩ := keys_ne
  have hlen : (body ty dims name).length ≥
      (sepBy [' ', ',', ' '] (dims.map decimal)).length + 30 + name.length := by
    unfold body
    simp only [List.length_cons, List.length_append]
    have l1 : (lit "type").length = 4 := by decide +kernel
    have l2 : (lit "dims").length = 4 := by decide +kernel
    have l3 : (lit "name").length = 4 := by decide +kernel
    simp only [l1, l2, l3]
    omega
  obtain ⟨f, rfl⟩ : ∃ f, fuel = f + 6 := ⟨fuel - 6, by omega⟩
  unfold body
  simp only [List.cons_append, List.append_assoc, List.nil_append]
  rw [field_ws, field_member _ _ _ _ q1]
  have m1 : ∀ r, field (f + 5) (lit "type") (' ' :: '"' :: (ty ++ '"' :: r))
      { type := none, dims := [] } = some ({ type := some code, dims := [] }, r) := by
    intro r
    unfold field
    rw [if_pos rfl, parseStr_ws _ _ (by decide), parseStr_here ty r hty]
    simp only [hc, h0, if_false]
  rw [m1]
  simp only
  rw [field_ws, field_comma, field_ws, field_member _ _ _ _ q2]
  have m2 : field (f + 3) (lit "dims") (' ' :: '[' ::
      (sepBy [' ', ',', ' '] (dims.map decimal) ++ ']' :: ' ' :: ',' :: ' ' ::
        '"' :: (lit "name" ++ '"' :: ' ' :: ':' :: ' ' :: '"' :: (name ++ '"' :: ' ' :: '}' ::
          '\n' :: rest)))) { type := some code, dims := [] } =
      some ({ type := some code, dims := dims }, ' ' :: ',' :: ' ' ::
        '"' :: (lit "name" ++ '"' :: ' ' :: ':' :: ' ' :: '"' :: (name ++ '"' :: ' ' :: '}' ::
          '\n' :: rest))) := by
    unfold field
    rw [if_neg k1, if_pos rfl, consume_ws _ _ _ (by decide), consume_here _ _ (by decide)]
    simp only
    rw [dimsLoop_eq dims hd _ _ _ (by
      simp only [List.length_cons, List.length_append]
      have l3 : (lit "name").length = 4 := by decide +kernel
      simp only [l3]
      omega)]
    simp
  rw [m2]
  simp only
  rw [field_ws, field_comma, field_ws, field_member _ _ _ _ q3]
  have m3 : ∀ r, field (f + 1) (lit "name") (' ' :: '"' :: (name ++ '"' :: r))
      { type := some code, dims := dims } = some ({ type := some code, dims := dims }, r) := by
    intro r
    unfold field afterStr
    rw [if_neg k2, if_neg k3, parseStr_ws _ _ (by decide), parseStr_here name r hname]
  rw [m3]
  simp only
  rw [field_ws, field_end]

/-! ## Lists of objects -/

theorem entry_ws (w : Char) (h : isWs w = true) (fuel : Nat) (s : Str) (acc : List SigEntry) :
    entryLoop fuel (w :: s) acc = entryLoop fuel s acc := by
  cases fuel with
  | zero => rfl
  | succ f => unfold entryLoop; rw [skipWS_ws _ _ h]

theorem entry_comma (fuel : Nat) (s : Str) (acc : List SigEntry) :
    entryLoop (fuel + 1) (',' :: s) acc = entryLoop fuel s acc := by
  rw [entryLoop, skipWS_not _ _ (by decide)]
  simp

theorem entry_end (fuel : Nat) (s : Str) (acc : List SigEntry) :
    entryLoop (fuel + 1) (']' :: s) acc = some acc := by
  rw [entryLoop, skipWS_not _ _ (by decide)]
  simp

theorem entry_object (fuel : Nat) (s : Str) (acc : List SigEntry) :
    entryLoop (fuel + 1) ('{' :: s) acc =
      match fieldLoop fuel s { type := none, dims := [] } with
      | none => none
      | some p => entryLoop fuel p.2 (acc ++ [p.1]) := by
  rw [entryLoop, skipWS_not _ _ (by decide)]
  simp only [show ¬ ('{' : Char) = ']' by decide, show ¬ ('{' : Char) = ',' by decide, if_false]
  rw [consume_here _ _ (by decide)]
  rfl

/-- The number of the element type of an input, and its dimensions. -/
def entryOf : Ty → SigEntry
  | .tensor elem dims => { type := some (typeCode elem), dims := dims }
  | .strings dims => { type := some 8, dims := dims }
  | .seq _ => { type := none, dims := [] }

theorem codes : (∀ t ∈ elemTypes, typeCode t ≠ 0 ∧ '"' ∉ t ∧ (t, typeCode t) ∈ onnxType) ∧
    typeCode (lit "string") = 8 ∧ '"' ∉ lit "string" := by decide +kernel

/-- One object. -/
theorem entry_step (t : Ty) (name : Str) (ht : Readable t) (hname : '"' ∉ name) (fuel : Nat)
    (rest : Str) (hf : (objectText name t ++ rest).length < fuel) (acc : List SigEntry) :
    ∃ f, entryLoop fuel (objectText name t ++ rest) acc = entryLoop f rest (acc ++ [entryOf t]) ∧
      rest.length < f := by
  have main : ∀ (ty : Str) (dims : List Int) (code : Nat), '"' ∉ ty → Fits dims →
      typeCode ty = code → code ≠ 0 → (tensorText (jsonString ty) dims name ++ rest).length < fuel →
      ∃ f, entryLoop fuel (tensorText (jsonString ty) dims name ++ rest) acc =
        entryLoop f rest (acc ++ [{ type := some code, dims := dims }]) ∧ rest.length < f := by
    intro ty dims code h1 h2 h3 h4 hl
    rw [tensorText_body] at hl ⊢
    simp only [List.cons_append, List.length_cons, List.length_append] at hl ⊢
    obtain ⟨f, rfl⟩ : ∃ f, fuel = f + 1 := ⟨fuel - 1, by omega⟩
    refine ⟨f, ?_, by omega⟩
    rw [entry_ws _ (by decide), entry_ws _ (by decide), entry_ws _ (by decide), entry_object,
      fieldLoop_eq ty dims name code h1 hname h2 h3 h4 f rest (by omega)]
    simp only
    rw [entry_ws _ (by decide)]
  cases t with
  | tensor elem dims =>
    obtain ⟨c1, c2, -⟩ := codes.1 elem ht.1
    exact main elem dims (typeCode elem) c2 ht.2 rfl c1 hf
  | strings dims =>
    exact main (lit "string") dims 8 codes.2.2 ht codes.2.1 (by omega) hf
  | seq t => exact ht.elim

/-- Objects with commas in between. -/
theorem entries_eq (xs : List (Ty × Str)) (hx : ∀ x ∈ xs, Readable x.1 ∧ '"' ∉ x.2) (fuel : Nat)
    (rest : Str) (acc : List SigEntry)
    (hf : (sepBy [' ', ',', ' '] (xs.map fun x => objectText x.2 x.1) ++ '\n' :: ']' :: rest).length <
      fuel) :
    entryLoop fuel (sepBy [' ', ',', ' '] (xs.map fun x => objectText x.2 x.1) ++ '\n' :: ']' :: rest)
      acc = some (acc ++ xs.map fun x => entryOf x.1) := by
  induction xs generalizing fuel acc with
  | nil =>
    cases fuel with
    | zero => omega
    | succ f =>
      simp only [List.map_nil, sepBy, List.nil_append]
      rw [entry_ws _ (by decide), entry_end]
      simp
  | cons x xs ih =>
    obtain ⟨h1, h2⟩ := hx x (by simp)
    cases xs with
    | nil =>
      simp only [List.map_cons, List.map_nil, sepBy] at hf ⊢
      obtain ⟨f, e, hl⟩ := entry_step x.1 x.2 h1 h2 fuel _ hf acc
      rw [e, entry_ws _ (by decide)]
      simp only [List.length_cons] at hl
      obtain ⟨g, rfl⟩ : ∃ g, f = g + 1 := ⟨f - 1, by omega⟩
      rw [entry_end]
    | cons y ys =>
      simp only [List.map_cons, sepBy, List.append_assoc] at hf ⊢
      obtain ⟨f, e, hl⟩ := entry_step x.1 x.2 h1 h2 fuel _ hf acc
      rw [e]
      simp only [List.cons_append, List.nil_append, List.length_cons, List.length_append] at hl ⊢
      obtain ⟨g, rfl⟩ : ∃ g, f = g + 1 := ⟨f - 1, by omega⟩
      rw [entry_ws _ (by decide), entry_comma, entry_ws _ (by decide)]
      have := ih (fun z hz => hx z (by simp [hz])) g (acc ++ [entryOf x.1]) (by
        simp only [List.map_cons, List.length_cons, List.length_append]
        omega)
      simp only [List.map_cons] at this
      rw [this]
      simp

/-! ## Sequences -/

theorem object_head (name : Str) (t : Ty) : ∃ r, objectText name t = ' ' :: ' ' :: ' ' :: '{' :: r := by
  cases t with
  | tensor elem dims => exact ⟨_, tensorText_body elem dims name⟩
  | strings dims => exact ⟨_, tensorText_body (lit "string") dims name⟩
  | seq t =>
    have e : lit "   {\"seq\" : " = [' ', ' ', ' ', '{', '"', 's', 'e', 'q', '"', ' ', ':', ' '] := by
      decide +kernel
    unfold objectText
    rw [e]
    exact ⟨_, rfl⟩

/-- A sequence is not read. -/
theorem entry_seq (t : Ty) (name : Str) (fuel : Nat) (rest : Str) (acc : List SigEntry) :
    entryLoop fuel (objectText name (.seq t) ++ rest) acc = none := by
  have e : lit "   {\"seq\" : " = [' ', ' ', ' ', '{', '"', 's', 'e', 'q', '"', ' ', ':', ' '] := by
    decide +kernel
  obtain ⟨r, hr⟩ := object_head name t
  unfold objectText
  rw [e, hr]
  simp only [List.cons_append, List.nil_append, List.append_assoc]
  rw [entry_ws _ (by decide), entry_ws _ (by decide), entry_ws _ (by decide)]
  cases fuel with
  | zero => rfl
  | succ f =>
    rw [entry_object]
    cases f with
    | zero => rfl
    | succ f =>
      have hk : ∀ s, fieldLoop (f + 1) ('"' :: 's' :: 'e' :: 'q' :: '"' :: ' ' :: ':' :: s)
          { type := none, dims := [] } = _ := fun s =>
        field_member f ['s', 'e', 'q'] s { type := none, dims := [] } (by decide)
      rw [hk]
      have hf : ∀ s, field f ['s', 'e', 'q'] (' ' :: ' ' :: ' ' :: ' ' :: '{' :: s)
          { type := none, dims := [] } = some ({ type := none, dims := [] }, '{' :: s) := by
        intro s
        have n1 : ¬ (['s', 'e', 'q'] : Str) = lit "type" := by decide +kernel
        have n2 : ¬ (['s', 'e', 'q'] : Str) = lit "dims" := by decide +kernel
        have hs : skipWS (' ' :: ' ' :: ' ' :: ' ' :: '{' :: s) = '{' :: s := by
          simp [skipWS, isWs]
        have hp : parseStr (' ' :: ' ' :: ' ' :: ' ' :: '{' :: s) = none := by
          unfold parseStr
          rw [hs]
          simp
        unfold field afterStr
        rw [if_neg n1, if_neg n2, hp, hs]
        simp
      rw [hf]
      simp only
      have hl : ∀ s, fieldLoop f ('{' :: s) { type := none, dims := [] } = none := by
        intro s
        cases f with
        | zero => rfl
        | succ f =>
          have hs : skipWS ('{' :: s) = '{' :: s := skipWS_not _ _ (by decide)
          have hp : parseStr ('{' :: s) = none := by
            unfold parseStr
            rw [hs]
            simp
          rw [fieldLoop, hs]
          simp [hp]
      rw [hl]

theorem entries_seq (pre post : List (Ty × Str)) (t : Ty) (n : Str)
    (hx : ∀ x ∈ pre, Readable x.1 ∧ '"' ∉ x.2) (fuel : Nat) (rest : Str) (acc : List SigEntry)
    (hf : (sepBy [' ', ',', ' '] ((pre ++ (.seq t, n) :: post).map fun x => objectText x.2 x.1) ++
      rest).length < fuel) :
    entryLoop fuel (sepBy [' ', ',', ' ']
      ((pre ++ (.seq t, n) :: post).map fun x => objectText x.2 x.1) ++ rest) acc = none := by
  induction pre generalizing fuel acc with
  | nil =>
    simp only [List.nil_append, List.map_cons]
    cases post with
    | nil => exact entry_seq t n fuel rest acc
    | cons y ys =>
      simp only [List.map_cons, sepBy, List.append_assoc]
      exact entry_seq t n fuel _ acc
  | cons x pre ih =>
    obtain ⟨h1, h2⟩ := hx x (by simp)
    have hsep : sepBy [' ', ',', ' '] (((x :: pre) ++ (.seq t, n) :: post).map
        fun x => objectText x.2 x.1) ++ rest = objectText x.2 x.1 ++ (' ' :: ',' :: ' ' ::
        (sepBy [' ', ',', ' '] ((pre ++ (.seq t, n) :: post).map fun x => objectText x.2 x.1) ++
          rest)) := by
      cases pre <;> simp [sepBy]
    rw [hsep] at hf ⊢
    obtain ⟨f, e, hl⟩ := entry_step x.1 x.2 h1 h2 fuel _ hf acc
    rw [e]
    simp only [List.length_cons] at hl
    obtain ⟨g, rfl⟩ : ∃ g, f = g + 1 := ⟨f - 1, by omega⟩
    rw [entry_ws _ (by decide), entry_comma, entry_ws _ (by decide)]
    exact ih (fun z hz => hx z (by simp [hz])) g _ (by omega)

/-- The signature without its opening bracket. -/
theorem parse_eq (xs : List (Ty × Str)) : ∃ s fuel, inputText xs = '[' :: ' ' :: s ∧
    s = sepBy [' ', ',', ' '] (xs.map fun x => objectText x.2 x.1) ++ ['\n', ']'] ∧
    s.length < fuel ∧
    parseSignature (inputText xs) = match entryLoop fuel s [] with
      | none => none
      | some es => if es = [] then none else some es := by
  have e0 : lit " , " = [' ', ',', ' '] := by decide +kernel
  have e1 : lit "[ " = ['[', ' '] := by decide +kernel
  have e2 : lit "\n]" = ['\n', ']'] := by decide +kernel
  have hi : inputText xs = '[' :: ' ' :: (sepBy [' ', ',', ' ']
      (xs.map fun x => objectText x.2 x.1) ++ ['\n', ']']) := by
    unfold inputText
    rw [e0, e1, e2]
    simp
  refine ⟨_, (inputText xs).length + 1, hi, rfl, ?_, ?_⟩
  · rw [hi]
    simp only [List.length_cons]
    omega
  · unfold parseSignature
    have : consume (inputText xs) '[' = some (' ' :: (sepBy [' ', ',', ' ']
        (xs.map fun x => objectText x.2 x.1) ++ ['\n', ']'])) := by
      rw [hi, consume_here _ _ (by decide)]
    rw [this]
    simp only
    rw [entry_ws _ (by decide)]
    rfl

end Verif.SigParse
