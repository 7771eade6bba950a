import Verif.Einsum.Regex
import Verif.Einsum.Spec
import Mathlib.Data.Char
import Mathlib.Data.List.Sort

/-!
# Equations of Einsum

The equations of the ONNX operator, and a model of `src/Dialect/ONNX/ONNXOps/Math/EinsumHelper.cpp`. Texts are lists of
characters, unknown extents are `none`, and `none` as a result stands for an error that is reported or an assertion that
fails.
-/

namespace Verif.Einsum

/-! ### Specification -/

/-- The letters that can be subscripts. -/
def isLetter (c : Char) : Bool := ('A' ≤ c ∧ c ≤ 'Z') ∨ ('a' ≤ c ∧ c ≤ 'z')

/-- The subscripts of an operand or of the result: letters, and possibly an ellipsis with letters after it. -/
structure Param where
  pre : List Char
  post : Option (List Char)

/-- An equation: the operands, and the result unless it is left out. -/
structure Eqn where
  ins : List Param
  out : Option Param

/-- The letters of a parameter. -/
def Param.letters (p : Param) : List Char := p.pre ++ p.post.getD []

/-- How a parameter is written. -/
def Param.text (p : Param) : List Char :=
  match p.post with
  | none => p.pre
  | some q => p.pre ++ '.' :: '.' :: '.' :: q

/-- Operands are separated by commas. -/
def insText : List Param → List Char
  | [] => []
  | [p] => p.text
  | p :: q :: ps => p.text ++ ',' :: insText (q :: ps)

/-- How an equation is written, without spaces. -/
def Eqn.text (e : Eqn) : List Char :=
  match e.out with
  | none => insText e.ins
  | some o => insText e.ins ++ '-' :: '>' :: o.text

/-- All subscripts are letters, and there is an operand. -/
def Eqn.Ok (e : Eqn) : Prop :=
  e.ins ≠ [] ∧ (∀ p ∈ e.ins, ∀ c ∈ p.letters, isLetter c = true) ∧ ∀ o ∈ e.out, ∀ c ∈ o.letters, isLetter c = true

/-- A text stands for an equation; spaces do not matter. -/
def Eqn.Reads (e : Eqn) (s : List Char) : Prop := e.Ok ∧ s.filter (· ≠ ' ') = e.text

/-- The subscript of an axis of the ellipsis, which is not a letter. -/
def digit (a : ℕ) : Char := Char.ofNat ('0'.toNat + a)

/-- The subscripts of all axes when the ellipsis stands for `k` axes. -/
def Param.subs (p : Param) (k : ℕ) : List Char :=
  match p.post with
  | none => p.pre
  | some q => p.pre ++ (List.range k).map digit ++ q

/-- The letters of all operands. -/
def Eqn.letters (e : Eqn) : List Char := e.ins.flatMap Param.letters

/-- The result: if it is left out, the ellipsis and then all letters that occur exactly once, in the order of the
characters. -/
def Eqn.result (e : Eqn) (o : Param) : Prop :=
  match e.out with
  | some q => o = q
  | none => o.pre = [] ∧ ∃ q, o.post = some q ∧ q.Pairwise (· < ·) ∧ ∀ c, c ∈ q ↔ e.letters.count c = 1

/-- The letters of the result occur once in it, and in some operand. -/
def Eqn.OutOk (e : Eqn) : Prop := ∀ o ∈ e.out, o.letters.Nodup ∧ ∀ c ∈ o.letters, c ∈ e.letters

/-- The ellipsis stands for `k` axes in operands of the given ranks; it stands for none if no operand has it. -/
def Eqn.Ellipsis (e : Eqn) (ranks : List ℕ) (k : ℕ) : Prop :=
  List.Forall₂ (fun p r => r = (p.subs k).length) e.ins ranks ∧ ((∀ p ∈ e.ins, p.post = none) → k = 0)

/-- The known extents of an operand, with their subscripts. -/
def known (p : List Char × List (Option ℕ)) : List (Char × ℕ) :=
  (p.1.zip p.2).filterMap fun q => q.2.map fun d => (q.1, d)

/-- Each subscript has one extent. -/
def OneExtent (l : List (Char × ℕ)) : Prop := ∀ q ∈ l, ∀ r ∈ l, q.1 = r.1 → q.2 = r.2

/-- Known extents with the same subscript agree: in the same operand, and other than 1 in all operands. -/
def Agree (ops : List (List Char × List (Option ℕ))) : Prop :=
  (∀ p ∈ ops, OneExtent (known p)) ∧ OneExtent ((ops.flatMap known).filter fun q => q.2 ≠ 1)

/-- What is known of the extent of a subscript: a known extent other than 1; otherwise nothing, or 1 if all extents are
known. -/
def typeOf (ops : List (List Char × List (Option ℕ))) (x : Char) : Option ℕ :=
  match (ops.flatMap known).find? fun q => q.1 = x ∧ q.2 ≠ 1 with
  | some q => some q.2
  | none => if ∃ p ∈ ops, (x, none) ∈ p.1.zip p.2 then none else some 1

/-! ### Model -/

namespace Sig

/-- EinsumHelper.cpp 34 (`" *"`). -/
def spaces : Re := .star (.set (· == ' '))

/-- EinsumHelper.cpp 34 (`ELLIPSIS`). -/
def ellipsis : Re :=
  .seq (.set (· == '.')) (.seq spaces (.seq (.set (· == '.')) (.seq spaces (.set (· == '.')))))

/-- EinsumHelper.cpp 35 (`ARROW`). -/
def arrow : Re := .seq (.set (· == '-')) (.seq spaces (.set (· == '>')))

/-- EinsumHelper.cpp 37 (`SUBSCRIPTS`). -/
def subscripts : Re := .star (.set fun c => c == ' ' || ('A' ≤ c && c ≤ 'Z') || ('a' ≤ c && c ≤ 'z'))

/-- EinsumHelper.cpp 39 (`PARAMETER`). -/
def parameter : Re := .seq subscripts (.alt (.seq ellipsis subscripts) .eps)

/-- EinsumHelper.cpp 41 (`INPUTS`). -/
def inputs : Re := .seq parameter (.star (.seq (.set (· == ',')) parameter))

/-- All ways to cut a text in two. -/
def cuts (s : List Char) : List (List Char × List Char) := (List.range (s.length + 1)).map fun k => (s.take k, s.drop k)

/-- EinsumHelper.cpp 42-46 (`OUTPUT`, `EQUATION`) and 52-56 (`std::regex_match`): the groups of a match. There is at most one
match. -/
def groups (s : List Char) : Option (List Char × Option (List Char)) :=
  (cuts s).findSome? fun c => if inputs.accepts c.1 then
    if c.2 = [] then some (c.1, none)
    else (cuts c.2).findSome? fun d =>
      if arrow.accepts d.1 && parameter.accepts d.2 then some (c.1, some d.2) else none
  else none

/-- EinsumHelper.cpp 75-87: the characters of the result. -/
def checkOutput (ins : List Char) : List Char → Bool
  | [] => true
  | x :: out => (!decide ('A' ≤ x) || (x ∉ out && x ∈ ins)) && checkOutput ins out

/-- EinsumHelper.cpp 50-89 (`verifyEquation`). -/
def verifyEquation (s : List Char) (n : ℕ) : Bool :=
  match groups s with
  | none => false
  | some (ins, out) =>
    if s.count ',' + 1 ≠ n then false
    else match out with
      | none => true
      | some out => checkOutput ins out

/-- `StringRef::split` at the first occurrence of a character. -/
def splitAt (c : Char) (s : List Char) : List Char × List Char := (s.takeWhile (· ≠ c), (s.dropWhile (· ≠ c)).drop 1)

/-- `StringRef::split` at all occurrences of a character. -/
def splitAll (c : Char) : List Char → List (List Char)
  | [] => [[]]
  | x :: s => if x = c then [] :: splitAll c s
    else match splitAll c s with
      | [] => [[x]]
      | t :: ts => (x :: t) :: ts

/-- EinsumHelper.cpp 113-128 (`inferEquationOutput`): the code goes through an ordered map of all characters. -/
def inferEquationOutput (s : List Char) : List Char :=
  '.' :: '.' :: '.' :: ((s.filter fun c => 'A' ≤ c ∧ s.count c = 1).insertionSort fun a b => a ≤ b)

/-- EinsumHelper.cpp 132-134 (`countLetters`). -/
def countLetters (s : List Char) : ℕ := s.length - s.count ' ' - s.count '.'

/-- EinsumHelper.cpp 136-138 (`hasEllipsis`). -/
def hasEllipsis (s : List Char) : Bool := '.' ∈ s

/-- EinsumHelper.cpp 140-146 (`appendLetterSubscripts`). -/
def letterSubs (s : List Char) : List Char := s.filter (· ≠ ' ')

/-- EinsumHelper.cpp 152 (`kMaxEllipsisRank`). -/
def maxEllipsis : ℕ := 10

/-- EinsumHelper.cpp 155-158 (`ellipsisSubscript`). -/
def ellipsisSubscript (a : ℕ) : Option Char := if a < 10 then some (Char.ofNat ('0'.toNat + a)) else none

/-- EinsumHelper.cpp 162-185 (`extractSubscripts`). -/
def extract (s : List Char) (rank : ℕ) : Option (List Char) :=
  let p := splitAt '.' s
  let prefixRank := p.1.length - p.1.count ' '
  (if p.1.length = s.length then
    if prefixRank = rank then some (letterSubs p.1) else none
  else
    let suffix := p.2.dropWhile fun c => c == ' ' || c == '.'
    let suffixRank := suffix.length - suffix.count ' '
    if rank < prefixRank + suffixRank then none
    else ((List.range (rank - prefixRank - suffixRank)).mapM ellipsisSubscript).map fun e =>
      letterSubs p.1 ++ e ++ letterSubs suffix).filter (·.length = rank)

/-- EinsumHelper.cpp 267-273 and 282-288: an entry of a map is added unless there is one for this subscript, and
compared with the one that is there. -/
def addDim (m : List (Char × ℕ)) (q : Char × ℕ) : Option (List (Char × ℕ)) :=
  match m.lookup q.1 with
  | none => some (m ++ [q])
  | some d0 => if d0 = q.2 then some m else none

/-- EinsumHelper.cpp 260-275: the map from subscripts to known extents in one operand. -/
def axisDims (subs : List Char) (shape : List (Option ℕ)) : Option (List (Char × ℕ)) :=
  ((subs.zip shape).filterMap fun q => q.2.map fun d => (q.1, d)).foldlM addDim []

/-- EinsumHelper.cpp 264-265: the subscripts of unknown extent. -/
def dynSubs (subs : List Char) (shape : List (Option ℕ)) : List Char :=
  ((subs.zip shape).filter fun q => q.2 = none).map Prod.fst

/-- EinsumHelper.cpp 278-290: the extents other than 1 are added to the map of all operands. The order in which the code goes
through the entries of one operand, which have different subscripts, does not matter. -/
def merge (m : List (Char × ℕ)) (n : List (Char × ℕ)) : Option (List (Char × ℕ)) :=
  (n.filter fun q => q.2 ≠ 1).foldlM addDim m

/-- EinsumHelper.cpp 214-222: what is known after some operands. -/
structure State where
  ellipsisRank : Option ℕ
  broadcast : List (Char × ℕ)
  dynamic : List Char
  ins : List (List Char)

/-- EinsumHelper.cpp 228-253: the ellipsis of an operand. -/
def checkEllipsis (er : Option ℕ) (s : List Char) (rank : ℕ) : Option (Option ℕ) :=
  if hasEllipsis s = false then if rank ≠ countLetters s then none else some er
  else if rank < countLetters s then none
  else if maxEllipsis < rank - countLetters s then none
  else match er with
    | none => some (some (rank - countLetters s))
    | some k => if k ≠ rank - countLetters s then none else some er

/-- EinsumHelper.cpp 224-290: one operand. -/
def step (st : State) (q : List Char × List (Option ℕ)) : Option State :=
  (checkEllipsis st.ellipsisRank q.1 q.2.length).bind fun er =>
    (extract q.1 q.2.length).bind fun subs =>
      (axisDims subs q.2).bind fun m =>
        (merge st.broadcast m).map fun b => ⟨er, b, st.dynamic ++ dynSubs subs q.2, st.ins ++ [subs]⟩

/-- EinsumHelper.cpp 305-313: the extent of a subscript of the result. -/
def outDim (st : State) (x : Char) : Option ℕ :=
  match st.broadcast.lookup x with
  | some d => some d
  | none => if x ∈ st.dynamic then none else some 1

/-- EinsumHelper.cpp 292-316: the result. -/
def finish (out : List Char) (st : State) : Option (List (List Char) × List Char × List (Option ℕ)) :=
  let k := st.ellipsisRank.getD 0
  if k ≠ 0 ∧ hasEllipsis out = false then none
  else (extract out (countLetters out + if hasEllipsis out then k else 0)).map fun subs =>
    (st.ins, subs, subs.map (outDim st))

/-- EinsumHelper.cpp 193-317 (`inferSignature`): the subscripts of the operands, and the subscripts and the shape of the
result. -/
def inferSignature (s : List Char) (shapes : List (List (Option ℕ))) :
    Option (List (List Char) × List Char × List (Option ℕ)) :=
  let p := splitAt '-' s
  let out := if p.1.length < s.length then p.2.dropWhile (fun c => c == ' ' || c == '>') else inferEquationOutput p.1
  let ins := splitAll ',' p.1
  if ins.length ≠ shapes.length then none
  else ((ins.zip shapes).foldlM step ⟨none, [], [], []⟩).bind (finish out)

end Sig

end Verif.Einsum
