import Verif.Fusion.Access

/-!
# The elements computed by fused loops
-/

namespace Verif.Fusion

variable {α : Type}

/-- The operations whose code for one element is the code for all their operands: not Mean, and Sum,
Max and Min of two operands. -/
def plain : Kind → Nat → Bool
  | .mean, _ => false
  | .sum, n => n == 2
  | .max, n => n == 2
  | .min, n => n == 2
  | _, _ => true

/-- The scale and the zero point of DequantizeLinear are one number. -/
def scalarsOf (k : Kind) (ts : List (Tensor α)) : Prop :=
  ∀ axis, k = .deq axis → ∀ t ∈ ts.tail, t.shape = []

theorem mapM_zip {β γ δ : Type} {h : β → γ} {f : γ × Nat → Option δ} {g : β × Nat → Option δ}
    (os : List β) (n : Nat) (hfg : ∀ i o, os[i]? = some o → f (h o, n + i) = g (o, n + i)) :
    ((os.map h).zipIdx n).mapM f = (os.zipIdx n).mapM g := by
  induction os generalizing n with
  | nil => rfl
  | cons o os ih =>
    simp only [List.map_cons, List.zipIdx_cons, List.mapM_cons]
    rw [ih (n + 1) (by
      intro i o' ho'
      have := hfg (i + 1) o' (by simpa using ho')
      have e : n + (i + 1) = n + 1 + i := by omega
      rwa [e] at this)]
    have := hfg 0 o (by simp)
    simp only [Nat.add_zero] at this
    rw [this]

theorem mapM_length {β γ : Type} {f : β → Option γ} {l : List β} {r : List γ} (h : l.mapM f = some r) :
    r.length = l.length := by
  induction l generalizing r with
  | nil => simp at h; simp [h]
  | cons a l ih =>
    simp only [List.mapM_cons] at h
    cases ha : f a with
    | none => simp [ha] at h
    | some b =>
      cases hl : l.mapM f with
      | none => simp [ha, hl] at h
      | some c =>
        simp [ha, hl] at h
        rw [← h]; simp [ih hl]

theorem emit_eq (sem : Sem α) {k : Kind} {vs : List α} (ha : arity k vs.length = true)
    (hp : plain k vs.length = true) : emit sem k vs = sem.eval k vs := by
  match vs with
  | [] => cases k <;> simp_all [arity, plain]
  | [x] => cases k <;> simp_all [arity, plain, emit, Sem.eval]
  | [x, y] => cases k <;> simp_all [arity, plain, emit, Sem.eval]
  | [x, y, z] => cases k <;> simp_all [arity, plain, emit, Sem.eval]
  | _ :: _ :: _ :: _ :: _ => cases k <;> simp_all [arity, plain]

theorem foldlM_some {f : α → α → Option α} {g : α → α → α} (h : ∀ a b, f a b = some (g a b))
    (xs : List α) (x : α) : xs.foldlM f x = some (xs.foldl g x) := by
  induction xs generalizing x with
  | nil => rfl
  | cons b xs ih => simp [List.foldlM_cons, h, ih]

theorem rootScalar_eq (sem : Sem α) {k : Kind} {vs : List α} (ha : arity k vs.length = true) :
    rootScalar sem k vs = sem.eval k vs := by
  cases vs with
  | nil => cases k <;> simp_all [arity]
  | cons x xs =>
    cases k with
    | unary k => exact emit_eq sem ha rfl
    | custom k => exact emit_eq sem ha rfl
    | prelu => exact emit_eq sem ha rfl
    | deq a => exact emit_eq sem ha rfl
    | instr k =>
      obtain ⟨y, rfl⟩ : ∃ y, xs = [y] := by
        have : xs.length = 1 := by simpa [arity] using ha
        exact List.length_eq_one_iff.1 this
      rfl
    | sum =>
      simp only [rootScalar, variadic, if_true, Sem.eval]
      rw [foldlM_some (f := fun a v => emit sem .sum [a, v]) (g := sem.add) (fun a b => rfl)]; rfl
    | mean =>
      simp only [rootScalar, variadic, if_true, Sem.eval]
      rw [foldlM_some (f := fun a v => emit sem .mean [a, v]) (g := sem.add) (fun a b => rfl)]; rfl
    | max =>
      simp only [rootScalar, variadic, if_true, Sem.eval]
      rw [foldlM_some (f := fun a v => emit sem .max [a, v]) (g := sem.max) (fun a b => rfl)]; rfl
    | min =>
      simp only [rootScalar, variadic, if_true, Sem.eval]
      rw [foldlM_some (f := fun a v => emit sem .min [a, v]) (g := sem.min) (fun a b => rfl)]; rfl

/-- With numbers for the scale and the zero point, DequantizeLinear broadcasts as the others do. -/
theorem uniform {k : Kind} {ts : List (Tensor α)} {S : List Nat} (ha : arity k ts.length = true)
    (hs : scalarsOf k ts) (hS : opShape k (ts.map Tensor.shape) = some S) :
    bShape (ts.map Tensor.shape) = some S ∧
      ∀ i t, ts[i]? = some t → ∀ idx, inside S idx = true →
        operandIndex k t.shape idx i = bIndex t.shape idx := by
  cases k with
  | deq axis =>
    match ts with
    | [] => simp [arity] at ha
    | [_] => simp [arity] at ha
    | [_, _] => simp [arity] at ha
    | _ :: _ :: _ :: _ :: _ => simp [arity] at ha
    | [x, s, z] =>
      have h1 : s.shape = [] := hs axis rfl s (by simp)
      have h2 : z.shape = [] := hs axis rfl z (by simp)
      have h3 : x.shape = S := by simpa [opShape] using hS
      refine ⟨by simp only [List.map_cons, List.map_nil, h1, h2, h3]; exact bShape_scalars S, ?_⟩
      intro i t ht idx hidx
      match i with
      | 0 =>
        have : x = t := by simpa using ht
        rw [← this, h3, bIndex_self hidx]; rfl
      | 1 =>
        have : s = t := by simpa using ht
        rw [← this, h1]; rfl
      | 2 =>
        have : z = t := by simpa using ht
        rw [← this, h2]; rfl
      | _ + 3 => simp at ht
  | _ => exact ⟨hS, fun _ _ _ _ _ => rfl⟩

theorem elementwise_eq {sem : Sem α} {k : Kind} {ts : List (Tensor α)} {T : Tensor α}
    (h : elementwise sem k ts = some T) : arity k ts.length = true ∧
      opShape k (ts.map Tensor.shape) = some T.shape ∧
      ∀ idx, T.data idx = if inside T.shape idx then
        (ts.zipIdx.mapM fun (ti : Tensor α × Nat) =>
          ti.1.read (operandIndex k ti.1.shape idx ti.2)).bind (sem.eval k) else none := by
  unfold elementwise at h
  split at h
  · next ha =>
    obtain ⟨S, hS, rfl⟩ := Option.map_eq_some_iff.1 h
    exact ⟨ha, hS, fun _ => rfl⟩
  · exact absurd h (by simp)

theorem stepElt_eq {sem : Sem α} {k : Kind} {os : List (Option (Tensor α))}
    {tys : List (List (Option Nat))} {D T : Tensor α} {idx : List Nat}
    (hel : elementwise sem k (os.map fun o => o.getD D) = some T) (hTS : T.shape = D.shape)
    (hF : List.Forall₂ Conforms tys ((os.map fun o => o.getD D).map Tensor.shape))
    (hp : plain k os.length = true) (hd : scalarsOf k (os.map fun o => o.getD D))
    (hlast : ∀ i t, os[i]? = some (some t) → t.shape.getLast? = some 1 →
      (tys.getD i []).getLast? = some (some 1))
    (hidx : inside D.shape idx = true) :
    T.data idx = stepElt sem k tys os idx (D.data idx) := by
  obtain ⟨ha, hS, hdat⟩ := elementwise_eq hel
  rw [hTS] at hS
  obtain ⟨hb, hix⟩ := uniform ha hd hS
  rw [hdat, hTS, if_pos hidx]
  unfold stepElt
  have e : ((os.map fun o => o.getD D).zipIdx.mapM fun (ti : Tensor α × Nat) =>
      ti.1.read (operandIndex k ti.1.shape idx ti.2)) =
      os.zipIdx.mapM fun (oi : Option (Tensor α) × Nat) => fusedRead tys (D.data idx) oi.1 oi.2 idx := by
    apply mapM_zip os 0
    intro i o ho
    have hti : (os.map fun o => o.getD D)[i]? = some (o.getD D) := by
      rw [List.getElem?_map, ho]; rfl
    simp only [Nat.zero_add]
    rw [hix i _ hti idx hidx]
    cases o with
    | none =>
      simp only [Option.getD_none, fusedRead]
      rw [bIndex_self hidx, Tensor.read, if_pos hidx]
    | some t =>
      simp only [Option.getD_some, fusedRead]
      rw [access_eq hF hb (s := t.shape) (by rw [List.getElem?_map, hti]; rfl) hidx
        (fun _ => hlast i t ho)]
  rw [e]
  cases hm : os.zipIdx.mapM fun (oi : Option (Tensor α) × Nat) =>
      fusedRead tys (D.data idx) oi.1 oi.2 idx with
  | none => rfl
  | some vs =>
    have hl : vs.length = os.length := by simpa using mapM_length hm
    have ha' : arity k os.length = true := by simpa using ha
    simp only [Option.bind_some]
    rw [emit_eq sem (by rw [hl]; exact ha') (by rw [hl]; exact hp)]

theorem rootElt_eq {sem : Sem α} {k : Kind} {ts : List (Tensor α)}
    {tys : List (List (Option Nat))} {T : Tensor α} {idx : List Nat}
    (hel : elementwise sem k ts = some T)
    (hF : List.Forall₂ Conforms tys (ts.map Tensor.shape))
    (hd : scalarsOf k ts) (hidx : inside T.shape idx = true) :
    T.data idx = rootElt sem k tys ts idx := by
  obtain ⟨ha, hS, hdat⟩ := elementwise_eq hel
  obtain ⟨hb, hix⟩ := uniform ha hd hS
  rw [hdat, if_pos hidx]
  unfold rootElt
  have e : (ts.zipIdx.mapM fun (ti : Tensor α × Nat) =>
      ti.1.read (operandIndex k ti.1.shape idx ti.2)) =
      ts.zipIdx.mapM fun (ti : Tensor α × Nat) => rootRead k tys ti.1 ti.2 idx := by
    have := mapM_zip (h := fun t : Tensor α => t)
      (f := fun ti : Tensor α × Nat => ti.1.read (operandIndex k ti.1.shape idx ti.2))
      (g := fun ti : Tensor α × Nat => rootRead k tys ti.1 ti.2 idx) ts 0 ?_
    · simpa using this
    · intro i t ht
      simp only [Nat.zero_add]
      have hti : (ts.map Tensor.shape)[i]? = some t.shape := by rw [List.getElem?_map, ht]; rfl
      have hacc := access_eq (flat := false) hF hb hti hidx (fun h => absurd h (by simp))
      cases k with
      | unary k =>
        rw [hix i t ht idx hidx]
        obtain ⟨y, rfl⟩ : ∃ y, ts = [y] := by
          have : ts.length = 1 := by simpa [arity] using ha
          exact List.length_eq_one_iff.1 this
        have hi0 : i = 0 := by
          have := (List.getElem?_eq_some_iff.1 ht).1
          simpa using this
        subst hi0
        have hy : y = t := by simpa using ht
        subst hy
        have : y.shape = T.shape := by
          have := bShape_single y.shape
          rw [show ([y].map Tensor.shape) = [y.shape] from rfl, this] at hb
          exact Option.some.inj hb
        rw [this, bIndex_self hidx]; rfl
      | deq axis =>
        match i with
        | 0 => rfl
        | i + 1 =>
          have : t.shape = [] := hd axis rfl t (by
            cases ts with
            | nil => simp at ht
            | cons x xs => exact List.mem_of_getElem? (by simpa using ht))
          simp [operandIndex, rootRead, axisIndex, this]
      | custom k => rw [hix i t ht idx hidx]; simp only [rootRead]; rw [hacc]
      | instr k => rw [hix i t ht idx hidx]; simp only [rootRead]; rw [hacc]
      | prelu => rw [hix i t ht idx hidx]; simp only [rootRead]; rw [hacc]
      | sum => rw [hix i t ht idx hidx]; simp only [rootRead]; rw [hacc]
      | mean => rw [hix i t ht idx hidx]; simp only [rootRead]; rw [hacc]
      | max => rw [hix i t ht idx hidx]; simp only [rootRead]; rw [hacc]
      | min => rw [hix i t ht idx hidx]; simp only [rootRead]; rw [hacc]
  rw [e]
  cases hm : ts.zipIdx.mapM fun (ti : Tensor α × Nat) => rootRead k tys ti.1 ti.2 idx with
  | none => rfl
  | some vs =>
    have hl : vs.length = ts.length := by simpa using mapM_length hm
    simp only [Option.bind_some]
    rw [rootScalar_eq sem (by rw [hl]; exact ha)]

end Verif.Fusion
