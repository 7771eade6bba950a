import Verif.Fusion.Block

/-!
# Chains of fused operations
-/

namespace Verif.Fusion

variable {α : Type}

/-- Every operation of the chain is fused with the one before. -/
def Linked (ctx : Ctx) (blk : List (Item α)) : Nat → List Elt → Prop
  | _, [] => True
  | d, u :: us => fusible ctx blk d = some u ∧ Linked ctx blk u.id us

theorem chain_linked (ctx : Ctx) (blk : List (Item α)) (n d : Nat) :
    Linked ctx blk d (chain ctx blk n d) := by
  induction n generalizing d with
  | zero => trivial
  | succ n ih =>
    unfold chain
    cases h : fusible ctx blk d with
    | none => trivial
    | some u => exact ⟨h, ih u.id⟩

theorem fusible_facts {ctx : Ctx} {blk : List (Item α)} {d : Nat} {u : Elt}
    (h : fusible ctx blk d = some u) :
    uses blk d = 1 ∧ Item.elt u ∈ blk ∧ d ∈ u.ops ∧ inputsValid ctx blk u d = true := by
  unfold fusible at h
  by_cases h1 : uses blk d = 1
  · rw [if_pos h1] at h
    cases hu : user blk d with
    | none => rw [hu] at h; simp at h
    | some x =>
      rw [hu] at h
      cases x with
      | elt e =>
        dsimp only at h
        by_cases h2 : (listed e.kind && inputsValid ctx blk e d) = true
        · rw [if_pos h2] at h
          cases h
          simp only [Bool.and_eq_true] at h2
          have hc : (Item.elt (α := α) u).ops.contains d = true := by
            have := List.find?_some hu
            exact this
          exact ⟨h1, List.mem_of_find?_eq_some hu, by simpa [Item.ops] using hc, h2.2⟩
        · rw [if_neg h2] at h; exact absurd h (by simp)
      | const i t => simp at h
      | other i o f => simp at h
      | fused i r s => simp at h
  · rw [if_neg h1] at h; exact absurd h (by simp)

theorem inputsValid_facts {ctx : Ctx} {blk : List (Item α)} {d : Nat} {u : Elt} (hd : d ∈ u.ops)
    (h : inputsValid ctx blk u d = true) :
    u.ops = [d] ∨ ((∀ v ∈ u.ops, v ≠ d → ctx.isArg v = true ∨ isConst blk v = true ∨ ctx.outerConst v = true) ∧
      ctx.ty d = ctx.ty u.id ∧ sameShape ctx d u.id = true) := by
  unfold inputsValid at h
  split at h
  · exact absurd h (by simp)
  split at h
  · next hl =>
    left
    obtain ⟨y, hy⟩ := List.length_eq_one_iff.1 hl
    rw [hy] at hd ⊢
    rw [List.mem_singleton.1 hd]
  split at h
  · exact absurd h (by simp)
  next hty =>
  split at h
  · exact absurd h (by simp)
  next hall =>
  right
  refine ⟨?_, by simpa using hty, h⟩
  intro v hv hvd
  have hall' : (u.ops.all fun v => ctx.isArg v || (v == d || (isConst blk v || ctx.outerConst v))) = true := by
    cases hb : (u.ops.all fun v => ctx.isArg v || (v == d || (isConst blk v || ctx.outerConst v))) with
    | true => rfl
    | false => rw [hb] at hall; exact absurd rfl hall
  have := List.all_eq_true.1 hall' v hv
  simp only [Bool.or_eq_true, beq_iff_eq] at this
  rcases this with h | h | h | h
  · exact Or.inl h
  · exact absurd h hvd
  · exact Or.inr (Or.inl h)
  · exact Or.inr (Or.inr h)

/-- The values have the types. -/
def Typed (ctx : Ctx) (env : Env α) : Prop := ∀ v t, env v = some t → Conforms (ctx.ty v) t.shape

/-- The analysis of dimensions is right. -/
def DimSound (ctx : Ctx) (env : Env α) : Prop :=
  ∀ s, ctx.same = some s → ∀ a b ta tb, s a b = true → env a = some ta → env b = some tb →
    ta.shape = tb.shape

theorem conforms_static {t : List (Option Nat)} {s s' : List Nat} (h : t.all Option.isSome = true)
    (h1 : Conforms t s) (h2 : Conforms t s') : s = s' := by
  apply List.ext_getElem
  · rw [← h1.1, ← h2.1]
  · intro r hr hr'
    have hrt : r < t.length := by rw [h1.1]; exact hr
    have := List.all_eq_true.1 h t[r] (List.getElem_mem hrt)
    obtain ⟨n, hn⟩ := Option.isSome_iff_exists.1 this
    have he : t[r]? = some (some n) := by rw [List.getElem?_eq_getElem hrt, hn]
    have a := h1.2 r n he
    have b := h2.2 r n he
    rw [List.getD_eq_getElem _ _ hr] at a
    rw [List.getD_eq_getElem _ _ hr'] at b
    rw [a, b]

theorem mapM_resolve {env : Env α} {d : Nat} {D : Tensor α} (hd : env d = some D) {vs : List Nat}
    {ts : List (Tensor α)} (h : vs.mapM env = some ts) :
    ∃ os, (vs.map fun v => if v = d then none else some v).mapM (resolve env) = some os ∧
      ts = os.map (fun o => o.getD D) ∧
      ∀ (i : Nat) (t : Tensor α), os[i]? = some (some t) → ∃ v, vs[i]? = some v ∧ v ≠ d ∧ env v = some t := by
  induction vs generalizing ts with
  | nil =>
    simp at h
    exact ⟨[], rfl, by simp [h], by simp⟩
  | cons v vs ih =>
    simp only [List.mapM_cons] at h
    cases hv : env v with
    | none => simp [hv] at h
    | some t =>
      cases hl : vs.mapM env with
      | none => simp [hv, hl] at h
      | some ts' =>
        simp [hv, hl] at h
        obtain ⟨os, h1, h2, h3⟩ := ih hl
        by_cases hvd : v = d
        · refine ⟨none :: os, ?_, ?_, ?_⟩
          · simp only [List.map_cons, List.mapM_cons, if_pos hvd, h1]
            simp [resolve]
          · rw [hvd, hd] at hv
            rw [← h, h2, Option.some.inj hv]; rfl
          · intro i t' hi
            cases i with
            | zero => simp at hi
            | succ i => exact h3 i t' (by simpa using hi)
        · refine ⟨some t :: os, ?_, ?_, ?_⟩
          · simp only [List.map_cons, List.mapM_cons, if_neg hvd, h1]
            simp [resolve, hv]
          · rw [← h, h2]; rfl
          · intro i t' hi
            cases i with
            | zero =>
              have : t = t' := by simpa using hi
              exact ⟨v, rfl, hvd, by rw [hv, this]⟩
            | succ i => exact h3 i t' (by simpa using hi)

theorem forall₂_mapM {R : List (Option Nat) → List Nat → Prop} {g : Nat → List (Option Nat)}
    {env : Env α} {vs : List Nat} {ts : List (Tensor α)} (h : vs.mapM env = some ts)
    (hR : ∀ v ∈ vs, ∀ t, env v = some t → R (g v) t.shape) :
    List.Forall₂ R (vs.map g) (ts.map Tensor.shape) := by
  induction vs generalizing ts with
  | nil => simp at h; subst h; exact .nil
  | cons v vs ih =>
    simp only [List.mapM_cons] at h
    cases hv : env v with
    | none => simp [hv] at h
    | some t =>
      cases hl : vs.mapM env with
      | none => simp [hv, hl] at h
      | some ts' =>
        simp [hv, hl] at h
        subst h
        exact .cons (hR v (by simp) t hv) (ih hl fun w hw => hR w (by simp [hw]))

/-- What is asked of the fused operations: the code for one element is all of the code, scale and zero
point are numbers, and arguments have last extent 1 only if this is known. -/
structure Simple (ctx : Ctx) (env : Env α) (u : Elt) : Prop where
  plain : plain u.kind u.ops.length = true
  scalars : ∀ ts, u.ops.mapM env = some ts → scalarsOf u.kind ts
  last : ∀ v ∈ u.ops, ctx.isArg v = true → ∀ t, env v = some t → t.shape.getLast? = some 1 →
    (ctx.ty v).getLast? = some (some 1)

theorem last_of_static {t : List (Option Nat)} {s : List Nat} (hc : Conforms t s)
    (h : t.all Option.isSome = true) (hl : s.getLast? = some 1) : t.getLast? = some (some 1) := by
  rw [List.getLast?_eq_getElem?] at hl ⊢
  have hr : s.length - 1 < s.length := (List.getElem?_eq_some_iff.1 hl).1
  have hrt : t.length - 1 < t.length := by rw [hc.1]; exact hr
  have := List.all_eq_true.1 h t[t.length - 1] (List.getElem_mem hrt)
  obtain ⟨n, hn⟩ := Option.isSome_iff_exists.1 this
  have he : t[t.length - 1]? = some (some n) := by rw [List.getElem?_eq_getElem hrt, hn]
  have a := hc.2 _ n he
  rw [hc.1, List.getD_eq_getElem?_getD, hl] at a
  rw [he]
  simp at a
  rw [← a]

/-- The fused loop computes the elements of the last operation. -/
theorem chain_value {sem : Sem α} {ctx : Ctx} {blk : List (Item α)} {env : Env α} {root : Nat}
    (hfix : ∀ x ∈ blk, ∃ t, env x.id = some t ∧ value sem ctx env x = some t)
    (hty : Typed ctx env) (hsame : DimSound ctx env)
    (hcst : ∀ v, isConst blk v = true → (ctx.ty v).all Option.isSome = true)
    {us : List Elt} : ∀ {d : Nat} {D : Tensor α}, Linked ctx blk d us → NoOuter ctx d us →
    (∀ u ∈ us, Simple ctx env u) → env d = some D → Conforms (ctx.ty root) D.shape →
    ∃ ls T, (steps d us).mapM (load ctx root env) = some ls ∧ env (lastId d us) = some T ∧
      T.shape = D.shape ∧
      ∀ idx, inside D.shape idx = true → T.data idx = chainElt sem idx ls (D.data idx) := by
  induction us with
  | nil =>
    intro d D _ _ _ hd _
    exact ⟨[], D, rfl, hd, rfl, fun _ _ => rfl⟩
  | cons u us ih =>
    intro d D hlink hout hsimple hd hroot
    obtain ⟨-, hmem, hdu, hval⟩ := fusible_facts hlink.1
    obtain ⟨T, hT, hv⟩ := hfix _ hmem
    have hT : env u.id = some T := hT
    obtain ⟨ts, hts, hel⟩ := Option.bind_eq_some_iff.1 hv
    obtain ⟨os, ho1, ho2, ho3⟩ := mapM_resolve hd hts
    have hs := hsimple u (by simp)
    have hlen : os.length = u.ops.length := by
      have := mapM_length ho1
      simpa using this
    have hvalid := inputsValid_facts hdu hval
    have hshape : T.shape = D.shape := by
      rcases hvalid with h1 | ⟨-, h2, h3⟩
      · rw [h1] at hts
        simp [hd] at hts
        have ha := (elementwise_eq hel).1
        have hS := (elementwise_eq hel).2.1
        rw [← hts] at ha hS
        cases hk : u.kind with
        | deq ax => rw [hk] at ha; simp [arity] at ha
        | _ =>
          rw [hk] at hS
          have hS' : bShape [D.shape] = some T.shape := hS
          rw [bShape_single] at hS'
          exact (Option.some.inj hS').symm
      · unfold sameShape at h3
        cases hsm : ctx.same with
        | some s =>
          rw [hsm] at h3
          exact (hsame s hsm d u.id D T h3 hd hT).symm
        | none =>
          rw [hsm] at h3
          simp only [Bool.and_eq_true] at h3
          have c1 := hty _ _ hd
          have c2 := hty _ _ hT
          rw [h2] at c1
          exact conforms_static h3.1 c2 c1
    have hF : List.Forall₂ Conforms
        (u.ops.map fun v => ctx.ty ((if v = d then none else some v : Option Nat).getD root))
        (ts.map Tensor.shape) := by
      apply forall₂_mapM hts
      intro v hv t ht
      by_cases hvd : v = d
      · rw [if_pos hvd]
        rw [hvd, hd] at ht
        cases ht
        exact hroot
      · rw [if_neg hvd]
        exact hty v t ht
    rw [ho2] at hel hF
    have hstep : ∀ idx, inside D.shape idx = true → T.data idx = stepElt sem u.kind
        (stepTys ctx root ⟨u.kind, u.ops.map fun v => if v = d then none else some v⟩) os idx
        (D.data idx) := by
      intro idx hidx
      have htys : stepTys ctx root ⟨u.kind, u.ops.map fun v => if v = d then none else some v⟩ =
          u.ops.map fun v => ctx.ty ((if v = d then none else some v : Option Nat).getD root) := by
        simp only [stepTys, List.map_map]; rfl
      rw [htys]
      refine stepElt_eq hel hshape hF ?_ ?_ ?_ hidx
      · rw [hlen]; exact hs.plain
      · rw [← ho2]; exact hs.scalars ts hts
      · intro i t hi hl
        obtain ⟨v, hvi, hvd, hvt⟩ := ho3 i t hi
        have hvm : v ∈ u.ops := List.mem_of_getElem? hvi
        have hgd : (u.ops.map fun v => ctx.ty ((if v = d then none else some v : Option Nat).getD root)).getD i []
            = ctx.ty v := by
          rw [List.getD_eq_getElem?_getD, List.getElem?_map, hvi]
          simp [hvd]
        rw [hgd]
        rcases hvalid with h1 | ⟨h1, -, -⟩
        · rw [h1] at hvm
          exact absurd (List.mem_singleton.1 hvm) hvd
        · rcases h1 v hvm hvd with h | h | h
          · exact hs.last v hvm h t hvt hl
          · exact last_of_static (hty v t hvt) (hcst v h) hl
          · rw [hout.1 v hvm hvd] at h; exact absurd h (by simp)
    obtain ⟨ls, T', i1, i2, i3, i4⟩ := ih hlink.2 hout.2 (fun w hw => hsimple w (by simp [hw])) hT
      (by rw [hshape]; exact hroot)
    refine ⟨⟨u.kind, stepTys ctx root ⟨u.kind, u.ops.map fun v => if v = d then none else some v⟩, os⟩ :: ls,
      T', ?_, i2, by rw [i3, hshape], ?_⟩
    · simp only [steps, List.mapM_cons, i1]
      have : load ctx root env ⟨u.kind, u.ops.map fun v => if v = d then none else some v⟩ =
          some ⟨u.kind, stepTys ctx root ⟨u.kind, u.ops.map fun v => if v = d then none else some v⟩, os⟩ := by
        unfold load
        rw [ho1]; rfl
      rw [this]; rfl
    · intro idx hidx
      rw [i4 idx (by rw [hshape]; exact hidx), hstep idx hidx]
      rfl

theorem fused_value {sem : Sem α} {ctx : Ctx} {blk : List (Item α)} {env : Env α} {root : Elt}
    (hfix : ∀ x ∈ blk, ∃ t, env x.id = some t ∧ value sem ctx env x = some t)
    (hty : Typed ctx env) (hsame : DimSound ctx env)
    (hcst : ∀ v, isConst blk v = true → (ctx.ty v).all Option.isSome = true)
    {us : List Elt} (hlink : Linked ctx blk root.id us) (hout : NoOuter ctx root.id us)
    (hs : ∀ u ∈ us, Simple ctx env u) (hroot : Item.elt root ∈ blk)
    (hrs : ∀ ts, root.ops.mapM env = some ts → scalarsOf root.kind ts) :
    ∃ T, env (lastId root.id us) = some T ∧
      value sem ctx env (.fused (lastId root.id us) root (steps root.id us)) = some T := by
  obtain ⟨D, hD, hv⟩ := hfix _ hroot
  have hD : env root.id = some D := hD
  obtain ⟨ts, hts, hel⟩ := Option.bind_eq_some_iff.1 hv
  obtain ⟨ls, T, h1, h2, h3, h4⟩ := chain_value (root := root.id) hfix hty hsame hcst hlink hout hs hD
    (hty _ _ hD)
  refine ⟨T, h2, ?_⟩
  show (root.ops.mapM env).bind _ = _
  rw [hts]
  simp only [Option.bind_some, h1]
  unfold fusedTensor
  rw [(elementwise_eq hel).2.1]
  simp only [Option.map_some, Option.some.injEq]
  have hF : List.Forall₂ Conforms (root.ops.map ctx.ty) (ts.map Tensor.shape) :=
    forall₂_mapM hts fun v _ t ht => hty v t ht
  have hTn : ∀ idx, inside D.shape idx = false → T.data idx = none := by
    intro idx hidx
    cases us with
    | nil =>
      have : T = D := by
        have : env root.id = some T := h2
        rw [hD] at this; exact (Option.some.inj this).symm
      rw [this, (elementwise_eq hel).2.2, hidx]; rfl
    | cons u us =>
      have hmem : ∃ w ∈ u :: us, lastId root.id (u :: us) = w.id ∧ Item.elt w ∈ blk := by
        clear h1 h2 h3 h4 hs hout
        generalize root.id = d at hlink
        induction us generalizing d u with
        | nil => exact ⟨u, by simp, rfl, (fusible_facts hlink.1).2.1⟩
        | cons w us ih =>
          obtain ⟨z, hz, h1, h2⟩ := ih w u.id hlink.2
          exact ⟨z, List.mem_cons_of_mem _ hz, h1, h2⟩
      obtain ⟨w, -, hw, hwb⟩ := hmem
      obtain ⟨T', hT', hv'⟩ := hfix _ hwb
      obtain ⟨ts', -, hel'⟩ := Option.bind_eq_some_iff.1 hv'
      have : T' = T := by
        have hT' : env w.id = some T' := hT'
        rw [hw, hT'] at h2; exact Option.some.inj h2
      rw [← this, (elementwise_eq hel').2.2, this, h3, hidx]; rfl
  cases T with
  | mk sh da =>
    congr 1
    · exact h3.symm
    · funext idx
      by_cases hidx : inside D.shape idx = true
      · rw [if_pos hidx, ← rootElt_eq hel hF (hrs ts hts) hidx]
        exact (h4 idx hidx).symm
      · rw [if_neg hidx]
        exact (hTn idx (by simpa using hidx)).symm

end Verif.Fusion
