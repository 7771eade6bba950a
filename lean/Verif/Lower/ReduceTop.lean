import Verif.Lower.ReduceRows
import Verif.Lower.ReduceSpec

namespace Verif.Lower

open Verif.Krnl (Buf IE forLoop starts isTileFull multiReduction simdHi mem_starts)

/-! ### Number of contributing elements -/

/-- The dimensions that are reduced. -/
def redDims : List Bool → List ℤ → List ℤ
  | true :: red, d :: ds => d :: redDims red ds
  | false :: red, _ :: ds => redDims red ds
  | _, _ => []

theorem numel_outDims (keep : Bool) : ∀ (red : List Bool) (dims : List ℤ), red.length = dims.length →
    numel dims = numel (outDims keep red dims) * numel (redDims red dims)
  | [], [], _ => by simp [outDims, redDims, numel]
  | [], _ :: _, h => by simp at h
  | _ :: _, [], h => by simp at h
  | true :: red, d :: ds, h => by
    have ih := numel_outDims keep red ds (by simpa using h)
    cases keep
    · simp only [outDims, redDims, numel_cons, Bool.false_eq_true, if_false]
      rw [ih]; ring
    · simp only [outDims, redDims, numel_cons, if_true]
      rw [ih]; ring
  | false :: red, d :: ds, h => by
    have ih := numel_outDims keep red ds (by simpa using h)
    simp only [outDims, redDims, numel_cons]
    rw [ih]; ring

theorem filter_flatMap_length {α : Type*} (p : α → Bool) (L : List ℤ) (f : ℤ → List α) :
    ((L.flatMap f).filter p).length = (L.map fun x => ((f x).filter p).length).sum := by
  induction L with
  | nil => simp
  | cons a L ih => simp [ih]

theorem sum_single (d x0 : ℤ) (n : ℕ) (h0 : 0 ≤ x0) (h1 : x0 < d) :
    ((upto d).map fun x => if x = x0 then n else 0).sum = n := by
  have hmem : x0 ∈ upto d := mem_upto.2 ⟨h0, h1⟩
  have hnd := nodup_upto d
  generalize upto d = L at hmem hnd
  induction L with
  | nil => simp at hmem
  | cons a L ih =>
    rw [List.nodup_cons] at hnd
    rcases List.mem_cons.1 hmem with rfl | hm
    · have : (L.map fun x => if x = x0 then n else 0).sum = 0 := by
        rw [List.sum_eq_zero]
        intro y hy
        obtain ⟨x, hx, rfl⟩ := List.mem_map.1 hy
        rw [if_neg]
        rintro rfl
        exact hnd.1 hx
      simp [this]
    · have : a ≠ x0 := by rintro rfl; exact hnd.1 hm
      simp [this, ih hm hnd.2]

theorem contributing_length (keep : Bool) : ∀ (red : List Bool) (dims : List ℤ) (o : Idx),
    red.length = dims.length → (∀ d ∈ dims, 0 ≤ d) → InShape o (outDims keep red dims) →
    ((contributing dims keep red o).length : ℤ) = numel (redDims red dims)
  | [], [], o, _, _, ho => by
    cases ho
    simp [contributing, idxs, project, redDims, numel]
  | [], _ :: _, _, h, _, _ => by simp at h
  | _ :: _, [], _, h, _, _ => by simp at h
  | true :: red, d :: ds, o, h, hd, ho => by
    have hl : red.length = ds.length := by simpa using h
    have hds : ∀ x ∈ ds, 0 ≤ x := fun x hx => hd x (by simp [hx])
    have hd0 := hd d (by simp)
    obtain ⟨o', ho', key⟩ : ∃ o', InShape o' (outDims keep red ds) ∧
        ∀ x xs, (project keep (true :: red) (x :: xs) = o ↔ project keep red xs = o') := by
      cases keep
      · exact ⟨o, by simpa [outDims] using ho, fun x xs => by simp [project]⟩
      · simp only [outDims, if_true] at ho
        cases o with
        | nil => cases ho
        | cons a o' =>
          obtain ⟨ha, ho2⟩ := inShape_cons.1 ho
          have : a = 0 := by omega
          subst this
          exact ⟨o', ho2, fun x xs => by simp [project]⟩
    have ih := contributing_length keep red ds o' hl hds ho'
    unfold contributing at ih ⊢
    rw [idxs, filter_flatMap_length]
    have : ∀ x : ℤ, (((idxs ds).map (x :: ·)).filter fun i => decide (project keep (true :: red) i = o)).length
        = ((idxs ds).filter fun i => decide (project keep red i = o')).length := by
      intro x
      rw [List.filter_map, List.length_map]
      congr 1
      refine List.filter_congr fun y _ => ?_
      simp only [Function.comp, decide_eq_decide]
      exact key x y
    simp only [this, redDims, numel_cons]
    rw [← ih]
    rw [List.map_const', List.sum_replicate, upto, List.length_map, List.length_range, smul_eq_mul,
      Nat.cast_mul, Int.toNat_of_nonneg hd0]
  | false :: red, d :: ds, o, h, hd, ho => by
    have hl : red.length = ds.length := by simpa using h
    have hds : ∀ x ∈ ds, 0 ≤ x := fun x hx => hd x (by simp [hx])
    rw [outDims] at ho
    cases o with
    | nil => cases ho
    | cons a o' =>
      obtain ⟨ha, ho2⟩ := inShape_cons.1 ho
      have ih := contributing_length keep red ds o' hl hds ho2
      unfold contributing at ih ⊢
      rw [idxs, filter_flatMap_length]
      have : ∀ x : ℤ, (((idxs ds).map (x :: ·)).filter
          fun i => decide (project keep (false :: red) i = a :: o')).length
          = if x = a then ((idxs ds).filter fun i => decide (project keep red i = o')).length else 0 := by
        intro x
        rw [List.filter_map, List.length_map]
        split
        · rename_i hx
          subst hx
          congr 1
          refine List.filter_congr fun y _ => ?_
          simp [Function.comp, project]
        · rename_i hx
          rw [List.length_eq_zero_iff, List.filter_eq_nil_iff]
          intro y _
          simp [Function.comp, project, hx]
      simp only [this, redDims]
      rw [sum_single _ _ _ ha.1 ha.2, ih]

theorem meanDivisor_eq (keep : Bool) (red : List Bool) (dims : List ℤ) (hl : red.length = dims.length)
    (hn : numel (outDims keep red dims) ≠ 0) :
    meanDivisor dims (outDims keep red dims) = some (numel (redDims red dims)) := by
  unfold meanDivisor
  rw [if_neg hn, numel_outDims keep red dims hl, Int.mul_ediv_cancel_left _ hn]

section
variable {R : Type*}

/-- The reduction of the contributing elements with an operation, from its neutral
value. -/
def reduceAt (op : R → R → R) (e : R) (X : Mem R) (keep : Bool) (red : List Bool)
    (o : Idx) : R :=
  ((contributing X.shape keep red o).map X.data).foldl op e

/-- The specification in terms of the operators of the lowering. -/
theorem specAt_eq (N : NumOps R) (k : RKind) (X : Mem R) (keep : Bool) (red : List Bool) (o : Idx) :
    specAt N k X keep red o =
  if k.divides then
    N.div (reduceAt (k.op N) (k.ident N) X keep red o)
      (N.ofInt (contributing X.shape keep red o).length)
  else reduceAt (k.op N) (k.ident N) X keep red o := by
  cases k <;> simp [specAt, reduceAt, RKind.divides, RKind.op, RKind.ident]

theorem lawful_of_laws {N : NumOps R} {k : RKind} (h : Laws N k) : k.Lawful N := by
  cases k <;> exact h

theorem specDims_eq (keep : Bool) : ∀ (red : List Bool) (dims : List ℤ),
    specDims keep red dims = outDims keep red dims
  | [], _ => by simp [specDims, outDims]
  | _ :: _, [] => by simp [specDims, outDims]
  | r :: red, d :: ds => by
    have := specDims_eq keep red ds
    unfold specDims at this ⊢
    cases r <;> cases keep <;> simp [outDims] <;> simpa using this

theorem scalarReduce_spec (N : NumOps R) (k : RKind) (X : Mem R) (keep : Bool) (red : List Bool)
    (acc : Idx → Idx) (hl : red.length = X.shape.length) (hd : ∀ d ∈ X.shape, 0 ≤ d)
    (hacc : ∀ i, InShape i X.shape → acc i = project keep red i)
    (hm : k.divides = true → numel (outDims keep red X.shape) ≠ 0) :
    ∃ o, scalarReduce N k X acc (outDims keep red X.shape) = some o ∧
      o.shape = outDims keep red X.shape ∧
      ∀ i, InShape i o.shape → o.data i = specAt N k X keep red i := by
  have hin : ∀ i, InShape i X.shape → InShape (acc i) (outDims keep red X.shape) := by
    intro i hi
    rw [hacc i hi]
    exact project_inShape keep red X.shape i hl hi
  have hfil : ∀ j, ((idxs X.shape).filter fun i => decide (acc i = j)) =
      contributing X.shape keep red j := by
    intro j
    refine List.filter_congr fun y hy => ?_
    rw [hacc y (mem_idxs.1 hy)]
  unfold scalarReduce
  simp only
  have hacc' := accumulate_spec (k.op N) X acc ⟨outDims keep red X.shape, fun _ => k.ident N⟩ hin
  by_cases hk : k.divides = true
  · rw [if_pos hk, meanDivisor_eq keep red X.shape hl (hm hk), Option.bind_some, hacc', Option.bind_some]
    obtain ⟨o', e, hs, hv⟩ := divideAll_spec N.div (N.ofInt (numel (redDims red X.shape)))
      ⟨outDims keep red X.shape, fun j =>
      (((idxs X.shape).filter fun i => acc i = j).map X.data).foldl (k.op N) (k.ident N)⟩
    refine ⟨o', e, hs, fun i hi => ?_⟩
    rw [hs] at hi
    rw [hv i hi, specAt_eq, if_pos hk, contributing_length keep red X.shape i hl hd hi]
    simp only [hfil, reduceAt]
  · rw [if_neg hk, hacc']
    refine ⟨_, rfl, rfl, fun i hi => ?_⟩
    rw [specAt_eq, if_neg hk]
    simp only [hfil, reduceAt]

/-! ### Innermost dimensions -/

/-- The mask of a reduction of the innermost dimensions. -/
def innerMask (a b : ℕ) : List Bool := List.replicate a false ++ List.replicate b true

theorem outDims_inner (keep : Bool) : ∀ (outer inner : List ℤ),
    outDims keep (innerMask outer.length inner.length) (outer ++ inner) =
      outer ++ (if keep then List.replicate inner.length 1 else [])
  | [], [] => by cases keep <;> rfl
  | [], d :: ds => by
    have := outDims_inner keep [] ds
    simp only [innerMask, List.length_nil, List.replicate_zero, List.nil_append, List.length_cons,
      List.replicate_succ] at this ⊢
    cases keep <;> simp [outDims, this]
  | d :: ds, inner => by
    have := outDims_inner keep ds inner
    simp only [innerMask, List.length_cons, List.replicate_succ, List.cons_append, outDims] at this ⊢
    rw [this]

theorem project_inner (keep : Bool) : ∀ (oi ii : Idx),
    project keep (innerMask oi.length ii.length) (oi ++ ii) =
      oi ++ (if keep then List.replicate ii.length 0 else [])
  | [], [] => by cases keep <;> rfl
  | [], d :: ds => by
    have := project_inner keep [] ds
    simp only [innerMask, List.length_nil, List.replicate_zero, List.nil_append, List.length_cons,
      List.replicate_succ] at this ⊢
    cases keep <;> simp [project, this]
  | d :: ds, inner => by
    have := project_inner keep ds inner
    simp only [innerMask, List.length_cons, List.replicate_succ, List.cons_append, project] at this ⊢
    rw [this]

theorem numel_ones (n : ℕ) : numel (List.replicate n 1) = 1 := by
  induction n with
  | zero => rfl
  | succ n ih => rw [List.replicate_succ, numel_cons, ih]; ring

theorem numel_outInner (keep : Bool) (outer inner : List ℤ) :
    numel (outer ++ (if keep then List.replicate inner.length 1 else [])) = numel outer := by
  rw [numel_append]
  cases keep
  · simp [numel]
  · simp [numel_ones]

theorem inShape_ones {n : ℕ} {i : Idx} (h : InShape i (List.replicate n 1)) :
    i = List.replicate n 0 := by
  induction n generalizing i with
  | zero => cases h; rfl
  | succ n ih =>
    rw [List.replicate_succ] at h
    cases i with
    | nil => cases h
    | cons a i =>
      obtain ⟨h1, h2⟩ := inShape_cons.1 h
      rw [ih h2, List.replicate_succ]
      congr 1
      omega

theorem lin_zeros (n : ℕ) : lin (List.replicate n 1) (List.replicate n 0) = 0 := by
  induction n with
  | zero => rfl
  | succ n ih => simp only [List.replicate_succ, lin, ih]; ring

theorem inShape_split {outer t : List ℤ} {o : Idx} (h : InShape o (outer ++ t)) :
    ∃ a b, o = a ++ b ∧ InShape a outer ∧ InShape b t := by
  induction outer generalizing o with
  | nil => exact ⟨[], o, rfl, inShape_nil, h⟩
  | cons d ds ih =>
    cases o with
    | nil => cases h
    | cons x xs =>
      obtain ⟨h1, h2⟩ := inShape_cons.1 h
      obtain ⟨a, b, rfl, ha, hb⟩ := ih h2
      exact ⟨x :: a, b, rfl, inShape_cons.2 ⟨h1, ha⟩, hb⟩

/-- An output index, without the kept dimensions. -/
theorem out_index {keep : Bool} {outer inner : List ℤ} {o : Idx}
    (h : InShape o (outer ++ (if keep then List.replicate inner.length 1 else []))) :
    ∃ oi, InShape oi outer ∧ o = oi ++ (if keep then List.replicate inner.length 0 else []) := by
  obtain ⟨a, b, rfl, ha, hb⟩ := inShape_split h
  refine ⟨a, ha, ?_⟩
  cases keep
  · cases hb; simp
  · simp only [if_true] at hb ⊢
    rw [inShape_ones hb]

theorem contributing_inner (keep : Bool) (outer inner : List ℤ) (oi : Idx) (ho : InShape oi outer) :
    (contributing (outer ++ inner) keep (innerMask outer.length inner.length)
      (oi ++ (if keep then List.replicate inner.length 0 else []))).Perm
      ((idxs inner).map (oi ++ ·)) := by
  unfold contributing
  rw [List.perm_ext_iff_of_nodup ((nodup_idxs _).filter _)
    ((nodup_idxs inner).map (fun a b h => List.append_cancel_left h))]
  intro i
  simp only [List.mem_filter, decide_eq_true_eq, List.mem_map, mem_idxs]
  constructor
  · rintro ⟨h1, h2⟩
    obtain ⟨a, b, rfl, ha, hb⟩ := inShape_split h1
    rw [← ha.length, ← hb.length, project_inner] at h2
    have := (List.append_inj h2 (by rw [ha.length, ho.length])).1
    exact ⟨b, hb, by rw [this]⟩
  · rintro ⟨b, hb, rfl⟩
    refine ⟨(inShape_append ho.length).2 ⟨ho, hb⟩, ?_⟩
    rw [← ho.length, ← hb.length, project_inner]

theorem foldl_perm {op : R → R → R} {e : R} (h : IsCommMon op e) {a b : List R} (hp : a.Perm b) :
    a.foldl op e = b.foldl op e := by
  refine hp.foldl_eq' (fun x _ y _ z => ?_) e
  rw [h.assoc, h.comm x y, ← h.assoc]

theorem row_list (X : Mem R) (outer inner : List ℤ) (hX : X.shape = outer ++ inner)
    (hd : ∀ d ∈ inner, 0 ≤ d) (oi : Idx) (ho : InShape oi outer) :
    ((List.range (numel inner).toNat).map fun (j : ℕ) => X.flat.data (lin outer oi * numel inner + j))
      = (idxs inner).map fun ii => X.data (oi ++ ii) := by
  have h1 : ((List.range (numel inner).toNat).map fun (j : ℕ) =>
      X.flat.data (lin outer oi * numel inner + j)) =
      (upto (numel inner)).map fun j => X.flat.data (lin outer oi * numel inner + j) := by
    rw [upto, List.map_map]; rfl
  rw [h1, ← idxs_lin hd, List.map_map]
  refine List.map_congr_left fun ii hii => ?_
  have hi := mem_idxs.1 hii
  simp only [Function.comp, Mem.flat]
  rw [← lin_append _ _ _ _ ho.length, hX, unlin_lin ((inShape_append ho.length).2 ⟨ho, hi⟩)]

theorem rowVal_spec (N : NumOps R) (k : RKind) (hk : k.Lawful N) (X : Mem R) (outer inner : List ℤ)
    (keep : Bool) (hX : X.shape = outer ++ inner) (hd : ∀ d ∈ X.shape, 0 ≤ d)
    (d : R) (hdiv : divisorFor N k X.shape
      (outer ++ (if keep then List.replicate inner.length 1 else [])) = some d)
    (oi : Idx) (ho : InShape oi outer) :
    rowVal N k X.flat (numel inner) d (lin outer oi) =
      specAt N k X keep (innerMask outer.length inner.length)
        (oi ++ (if keep then List.replicate inner.length 0 else [])) := by
  have hred : reduceAt (k.op N) (k.ident N) X keep (innerMask outer.length inner.length)
        (oi ++ (if keep then List.replicate inner.length 0 else [])) =
      ((idxs inner).map fun ii => X.data (oi ++ ii)).foldl (k.op N) (k.ident N) := by
    unfold reduceAt
    rw [hX]
    have := (contributing_inner keep outer inner oi ho).map X.data
    rw [List.map_map] at this
    exact foldl_perm hk this
  have hlen : (contributing X.shape keep (innerMask outer.length inner.length)
      (oi ++ (if keep then List.replicate inner.length 0 else []))).length = (idxs inner).length := by
    rw [hX, (contributing_inner keep outer inner oi ho).length_eq, List.length_map]
  have hdi : ∀ d ∈ inner, 0 ≤ d := fun x hx => hd x (by rw [hX]; simp [hx])
  rw [specAt_eq]
  unfold rowVal post
  rw [row_list X outer inner hX hdi oi ho, hred, hlen, length_idxs hdi]
  unfold divisorFor at hdiv
  by_cases hk : k.divides = true
  · rw [if_pos hk, if_pos hk]
    rw [if_pos hk, meanDivisor, numel_outInner] at hdiv
    by_cases hn : numel outer = 0
    · rw [if_pos hn] at hdiv; simp at hdiv
    · rw [if_neg hn] at hdiv
      simp only [Option.map_some, Option.some.injEq] at hdiv
      rw [hX, numel_append, Int.mul_ediv_cancel_left _ hn] at hdiv
      rw [hdiv]
  · rw [if_neg hk, if_neg hk]

theorem lin_out (keep : Bool) (outer inner : List ℤ) (oi : Idx) (ho : InShape oi outer) :
    lin (outer ++ (if keep then List.replicate inner.length 1 else []))
      (oi ++ (if keep then List.replicate inner.length 0 else [])) = lin outer oi := by
  rw [lin_append _ _ _ _ ho.length]
  cases keep
  · simp [lin, numel]
  · simp only [if_true, numel_ones, lin_zeros]; ring

theorem reduceHorizontal_spec (N : NumOps R) (k : RKind) (hk : k.Lawful N) (X : Mem R)
    (outer inner : List ℤ) (keep lit : Bool) (VL : ℕ) (simdOnly : Bool) (junk : ℤ → R)
    (hX : X.shape = outer ++ inner) (hd : ∀ d ∈ X.shape, 0 ≤ d) (hVL : 0 < VL)
    (hs : simdOnly = true → (VL : ℤ) ∣ numel inner)
    (hm : k.divides = true → numel outer ≠ 0) :
    ∃ o, reduceHorizontal N k X outer inner keep lit VL simdOnly junk = some o ∧
      o.shape = outDims keep (innerMask outer.length inner.length) X.shape ∧
      ∀ i, InShape i o.shape → o.data i =
        specAt N k X keep (innerMask outer.length inner.length) i := by
  have hdi : ∀ d ∈ inner, 0 ≤ d := fun x hx => hd x (by rw [hX]; simp [hx])
  obtain ⟨d, hdv⟩ : ∃ d, divisorFor N k X.shape
      (outer ++ (if keep then List.replicate inner.length 1 else [])) = some d := by
    unfold divisorFor meanDivisor
    split
    · rename_i hk
      rw [if_neg (by rw [numel_outInner]; exact hm hk)]
      exact ⟨_, rfl⟩
    · exact ⟨_, rfl⟩
  unfold reduceHorizontal
  simp only
  rw [hdv, Option.bind_some]
  obtain ⟨o, e, hsz, hv⟩ := horizontal_spec N k hk X.flat outer ⟨numel inner, lit⟩ VL simdOnly d
    ⟨numel (outer ++ (if keep then List.replicate inner.length 1 else [])), junk⟩ hVL
    (numel_nonneg hdi) hs (by simp only [Mem.flat, hX, numel_append]) (by simp only [numel_outInner])
  rw [e]
  refine ⟨_, rfl, by rw [hX, outDims_inner]; rfl, ?_⟩
  intro i hi
  obtain ⟨oi, ho, rfl⟩ := out_index hi
  simp only [ofFlat]
  rw [lin_out keep outer inner oi ho, hv oi ho, rowVal_spec N k hk X outer inner keep hX hd d hdv oi ho]

theorem reduceShuffle_spec (N : NumOps R) (k : RKind) (hk : k.Lawful N) (X : Mem R)
    (outer : List ℤ) (M : IE) (inner : List ℤ) (keep lit : Bool) (e : ℕ) (simdOnly : Bool) (junk : ℤ → R)
    (hX : X.shape = outer ++ [M.val] ++ inner) (hd : ∀ d ∈ X.shape, 0 ≤ d)
    (hs : simdOnly = true → ((2 ^ e : ℕ) : ℤ) ∣ numel inner)
    (hm : k.divides = true → numel (outer ++ [M.val]) ≠ 0) :
    ∃ o, reduceShuffle N k X outer M inner keep lit (2 ^ e) simdOnly junk = some o ∧
      o.shape = outDims keep (innerMask (outer ++ [M.val]).length inner.length) X.shape ∧
      ∀ i, InShape i o.shape → o.data i =
        specAt N k X keep (innerMask (outer ++ [M.val]).length inner.length) i := by
  have hdi : ∀ d ∈ inner, 0 ≤ d := fun x hx => hd x (by rw [hX]; simp [hx])
  obtain ⟨d, hdv⟩ : ∃ d, divisorFor N k X.shape
      (outer ++ [M.val] ++ (if keep then List.replicate inner.length 1 else [])) = some d := by
    unfold divisorFor meanDivisor
    split
    · rename_i hk
      rw [if_neg (by rw [numel_outInner]; exact hm hk)]
      exact ⟨_, rfl⟩
    · exact ⟨_, rfl⟩
  unfold reduceShuffle
  simp only
  rw [hdv, Option.bind_some]
  obtain ⟨o, eo, hsz, hv⟩ := shuffleHorizontal_spec N k hk X.flat outer M ⟨numel inner, lit⟩ e simdOnly d
    ⟨numel (outer ++ [M.val] ++ (if keep then List.replicate inner.length 1 else [])), junk⟩
    (numel_nonneg hdi) hs (by simp only [Mem.flat, hX, numel_append]) (by simp only [numel_outInner])
  rw [eo]
  refine ⟨_, rfl, by rw [hX, outDims_inner]; rfl, ?_⟩
  intro i hi
  obtain ⟨oi, ho, rfl⟩ := out_index hi
  simp only [ofFlat]
  rw [lin_out keep (outer ++ [M.val]) inner oi ho, hv oi ho,
    rowVal_spec N k hk X (outer ++ [M.val]) inner keep hX hd d hdv oi ho]

end

end Verif.Lower
