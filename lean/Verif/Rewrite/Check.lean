import Verif.Rewrite.TermLemmas

/-! # A checker for recorded types, used for concrete examples -/

namespace Verif.Rewrite

variable {V : Type} [Inhabited V]

def fitsB : List (Option ℕ) → List ℕ → Bool
  | [], [] => true
  | d :: ds, n :: ns => (d == none || d == some n) && fitsB ds ns
  | _, _ => false

theorem fitsB_fits : ∀ {ds : List (Option ℕ)} {s : List ℕ}, fitsB ds s = true → FitsDims ds s
  | [], [], _ => .nil
  | d :: ds, n :: ns, h => by
    simp only [fitsB, Bool.and_eq_true, Bool.or_eq_true, beq_iff_eq] at h
    exact .cons h.1 (fitsB_fits h.2)
  | [], _ :: _, h => by simp [fitsB] at h
  | _ :: _, [], h => by simp [fitsB] at h

def tyFitsB (ty : STy) (s : List ℕ) : Bool :=
  match ty.dims with
  | none => true
  | some ds => fitsB ds s

theorem tyFitsB_fits {ty : STy} {s : List ℕ} (h : tyFitsB ty s = true) : ty.Fits s := by
  intro ds hd
  unfold tyFitsB at h
  rw [hd] at h
  exact fitsB_fits h

instance decElt : ∀ (o : Op) (as : List STy) (r : DT), Decidable (EltOk o as r)
  | o, as, r => by
    cases o <;> rcases as with _ | ⟨a, _ | ⟨a', _ | ⟨a'', _ | ⟨a3, as⟩⟩⟩⟩ <;> unfold EltOk <;>
      first
      | infer_instance
      | (split <;> infer_instance)
      | (rename_i b; cases b <;> infer_instance)
      | (split <;> first | infer_instance | (rename_i b _ _; cases b <;> infer_instance))

mutual
def typedB (A : Alg V) (env : ℕ → Tensor V) : Ex V → Bool
  | .none => true
  | .arg i ty => tyFitsB ty (env i).shape
  | .const _ _ => true
  | .op o args ty =>
    (match (evalL A env args).bind fun vs => sem A o vs with
      | some t => tyFitsB ty t.shape
      | none => true) &&
    (decide (EltOk o (args.map Ex.ty) ty.elt) && typedBL A env args)
def typedBL (A : Alg V) (env : ℕ → Tensor V) : List (Ex V) → Bool
  | [] => true
  | e :: es => typedB A env e && typedBL A env es
end

mutual
theorem typedB_typed {A : Alg V} {env : ℕ → Tensor V} : ∀ {e : Ex V}, typedB A env e = true →
    Typed A env e
  | .none, _ => typed_none
  | .arg i ty, h => by
    rw [typedB] at h
    rw [Typed]
    exact tyFitsB_fits h
  | .const _ _, _ => typed_const
  | .op o args ty, h => by
    rw [typedB, Bool.and_eq_true, Bool.and_eq_true, decide_eq_true_eq] at h
    rw [typed_op]
    refine ⟨?_, h.2.1, typedBL_typed h.2.2⟩
    intro t ht
    obtain ⟨xs, t', hx, hsem, he⟩ := eval_op.1 ht
    cases he
    have := h.1
    rw [hx] at this
    simp only [Option.bind_some, hsem] at this
    exact tyFitsB_fits this
theorem typedBL_typed {A : Alg V} {env : ℕ → Tensor V} : ∀ {es : List (Ex V)},
    typedBL A env es = true → TypedL A env es
  | [], _ => typedL_nil
  | e :: es, h => by
    rw [typedBL, Bool.and_eq_true] at h
    exact typedL_cons.2 ⟨typedB_typed h.1, typedBL_typed h.2⟩
end

/-- Integers as elements, for examples. -/
def zAlg : Alg ℤ where
  un n _ v := if n = "Neg" then -v else if n = "Relu" then max v 0 else v
  bin b x y := match b with
    | .add => x + y
    | .sub => x - y
    | .mul => x * y
    | .div => x / y
    | .pow => x ^ y.toNat
    | .equal => if x = y then 1 else 0
    | .less => if x < y then 1 else 0
    | .greater => if x > y then 1 else 0
    | .and => if x ≠ 0 ∧ y ≠ 0 then 1 else 0
    | .or => if x ≠ 0 ∨ y ≠ 0 then 1 else 0
    | .xor => if (x ≠ 0) ≠ (y ≠ 0) then 1 else 0
    | .max => max x y
    | .min => min x y
  cast d v := if d.kind = .bool then (if v = 0 then 0 else 1) else v
  ofInt n := n
  ofRat q := q.num / q.den
  toInt v := v
  truth v := v ≠ 0
  toInt_ofInt _ := rfl

/-- The tensor with the elements 1, 2, 3, ... -/
def iota (s : List ℕ) : Tensor ℤ := ⟨s, (List.range s.prod).map fun (k : ℕ) => (k : ℤ) + 1, by simp⟩

/-- A constant vector of integers. -/
def cvec (l : List ℤ) : Ex ℤ := .const (ofInts zAlg l) i64

/-- A fragment on which a pattern applies, with a value that it keeps. -/
def Applies (rule : Ex ℤ → Outcome ℤ) (env : ℕ → Tensor ℤ) (e : Ex ℤ) : Prop :=
  (∃ e', rule e = .into e') ∧ Typed zAlg env e ∧ ∃ t, eval zAlg env e = some (some t)

/-- A fragment whose value a pattern changes, or that it replaces by one that has no value. -/
def Breaks (rule : Ex ℤ → Outcome ℤ) (env : ℕ → Tensor ℤ) (e : Ex ℤ) : Prop :=
  ∃ e' t, rule e = .into e' ∧ Typed zAlg env e ∧ eval zAlg env e = some (some t) ∧
    eval zAlg env e' ≠ some (some t)

def intoB (rule : Ex ℤ → Outcome ℤ) (e : Ex ℤ) : Option (Ex ℤ) :=
  match rule e with
  | .into e' => some e'
  | _ => none

theorem intoB_some {rule : Ex ℤ → Outcome ℤ} {e e' : Ex ℤ} (h : intoB rule e = some e') :
    rule e = .into e' := by
  unfold intoB at h
  split at h
  · cases h; assumption
  · cases h

theorem applies_of {rule : Ex ℤ → Outcome ℤ} {env : ℕ → Tensor ℤ} {e : Ex ℤ}
    (h : ((intoB rule e).isSome && typedB zAlg env e &&
      ((eval zAlg env e).bind id).isSome) = true) : Applies rule env e := by
  rw [Bool.and_eq_true, Bool.and_eq_true, Option.isSome_iff_exists, Option.isSome_iff_exists] at h
  obtain ⟨⟨⟨e', h1⟩, h2⟩, t, h3⟩ := h
  rw [Option.bind_eq_some_iff] at h3
  obtain ⟨o, h3, h4⟩ := h3
  exact ⟨⟨e', intoB_some h1⟩, typedB_typed h2, t, by rw [h3]; exact congrArg some h4⟩

theorem breaks_of {rule : Ex ℤ → Outcome ℤ} {env : ℕ → Tensor ℤ} {e : Ex ℤ}
    (h : (match intoB rule e with
      | some e' => typedB zAlg env e && ((eval zAlg env e).bind id).isSome &&
          decide (eval zAlg env e' ≠ eval zAlg env e)
      | none => false) = true) : Breaks rule env e := by
  split at h
  · rename_i e' h1
    rw [Bool.and_eq_true, Bool.and_eq_true, decide_eq_true_eq, Option.isSome_iff_exists] at h
    obtain ⟨⟨h2, t, h3⟩, h4⟩ := h
    rw [Option.bind_eq_some_iff] at h3
    obtain ⟨o, h3, h5⟩ := h3
    have h3 : eval zAlg env e = some (some t) := by rw [h3]; exact congrArg some h5
    exact ⟨e', t, intoB_some h1, typedB_typed h2, h3, h3 ▸ h4⟩
  · cases h

/-- A pattern whose replacement carries a wrong element type. -/
def Mistypes (rule : Ex ℤ → Outcome ℤ) (env : ℕ → Tensor ℤ) (e : Ex ℤ) : Prop :=
  ∃ e', rule e = .into e' ∧ Typed zAlg env e ∧ (∃ t, eval zAlg env e = some (some t)) ∧
    ¬ Typed zAlg env e'

/-- A valid fragment on which a pattern makes the compiler crash. -/
def Crashes (rule : Ex ℤ → Outcome ℤ) (env : ℕ → Tensor ℤ) (e : Ex ℤ) : Prop :=
  rule e = .crash ∧ Typed zAlg env e ∧ ∃ t, eval zAlg env e = some (some t)

def crashB (rule : Ex ℤ → Outcome ℤ) (e : Ex ℤ) : Bool :=
  match rule e with
  | .crash => true
  | _ => false

theorem crashes_of {rule : Ex ℤ → Outcome ℤ} {env : ℕ → Tensor ℤ} {e : Ex ℤ}
    (h : (crashB rule e && typedB zAlg env e && ((eval zAlg env e).bind id).isSome) = true) :
    Crashes rule env e := by
  rw [Bool.and_eq_true, Bool.and_eq_true, Option.isSome_iff_exists] at h
  obtain ⟨⟨h1, h2⟩, t, h3⟩ := h
  rw [Option.bind_eq_some_iff] at h3
  obtain ⟨o, h3, h4⟩ := h3
  refine ⟨?_, typedB_typed h2, t, by rw [h3]; exact congrArg some h4⟩
  unfold crashB at h1
  split at h1
  · assumption
  · cases h1

end Verif.Rewrite
