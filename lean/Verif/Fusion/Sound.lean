import Verif.Fusion.Chain
import Mathlib.Algebra.BigOperators.Group.List.Basic

/-!
# Fusion preserves the values of a block
-/

namespace Verif.Fusion

variable {α : Type}

/-- The values that are no longer computed: the results of all operations of the chain but the last. -/
def erased : Nat → List Elt → List Nat
  | _, [] => []
  | d, u :: us => d :: erased u.id us

/-- The values defined before the operation `r`. -/
def before (r : Nat) (blk : List (Item α)) : List Nat := (blk.takeWhile fun x => x.id != r).map Item.id

/-- A block in which every name is new, and constants have known shapes. -/
structure WF (ctx : Ctx) (env0 : Env α) (blk : List (Item α)) : Prop where
  nodup : (blk.map Item.id).Nodup
  fresh : ∀ x ∈ blk, env0 x.id = none
  args : ∀ v, ctx.isArg v = true → v ∉ blk.map Item.id
  consts : ∀ v, isConst blk v = true → (ctx.ty v).all Option.isSome = true

theorem erased_or_last (d : Nat) (us : List Elt) :
    (d ∈ erased d us ∨ d = lastId d us) ∧ ∀ u ∈ us, u.id ∈ erased d us ∨ u.id = lastId d us := by
  induction us generalizing d with
  | nil => exact ⟨Or.inr rfl, by simp⟩
  | cons u us ih =>
    obtain ⟨h1, h2⟩ := ih u.id
    refine ⟨Or.inl (by simp [erased]), ?_⟩
    intro w hw
    rcases List.mem_cons.1 hw with rfl | hw
    · exact h1.imp_left (fun h => by simp [erased, h])
    · exact (h2 w hw).imp_left (fun h => by simp [erased, h])

theorem erased_next {ctx : Ctx} {blk : List (Item α)} {d : Nat} {us : List Elt}
    (h : Linked ctx blk d us) {v : Nat} (hv : v ∈ erased d us) :
    ∃ u ∈ us, fusible ctx blk v = some u := by
  induction us generalizing d with
  | nil => simp [erased] at hv
  | cons u us ih =>
    rcases List.mem_cons.1 hv with rfl | hv
    · exact ⟨u, by simp, h.1⟩
    · obtain ⟨w, hw, he⟩ := ih h.2 hv
      exact ⟨w, List.mem_cons_of_mem _ hw, he⟩

theorem erased_mem {d : Nat} {us : List Elt} {v : Nat} (hv : v ∈ erased d us) :
    v = d ∨ ∃ u ∈ us, u.id = v := by
  induction us generalizing d with
  | nil => simp [erased] at hv
  | cons u us ih =>
    rcases List.mem_cons.1 hv with rfl | hv
    · exact Or.inl rfl
    · rcases ih hv with h | ⟨w, hw, he⟩
      · exact Or.inr ⟨u, by simp, h.symm⟩
      · exact Or.inr ⟨w, List.mem_cons_of_mem _ hw, he⟩

theorem two_uses {blk : List (Item α)} {x y : Item α} {d : Nat} (hx : x ∈ blk) (hy : y ∈ blk)
    (hne : x.id ≠ y.id) (hdx : d ∈ x.ops) (hdy : d ∈ y.ops) : 2 ≤ uses blk d := by
  have cx : 1 ≤ x.ops.count d := List.one_le_count_iff.2 hdx
  have cy : 1 ≤ y.ops.count d := List.one_le_count_iff.2 hdy
  have one : ∀ {z : Item α} {l : List (Item α)}, z ∈ l → z.ops.count d ≤ uses l d := by
    intro z l hz
    induction l with
    | nil => simp at hz
    | cons w l ih =>
      have e : uses (w :: l) d = w.ops.count d + uses l d := by simp [uses]
      rcases List.mem_cons.1 hz with rfl | hz
      · omega
      · have := ih hz; omega
  induction blk with
  | nil => simp at hx
  | cons w l ih =>
    have e : uses (w :: l) d = w.ops.count d + uses l d := by simp [uses]
    rcases List.mem_cons.1 hx with hx' | hx' <;> rcases List.mem_cons.1 hy with hy' | hy'
    · rw [hx', hy'] at hne; exact absurd rfl hne
    · have := one hy'; rw [hx'] at cx; omega
    · have := one hx'; rw [hy'] at cy; omega
    · have := ih hx' hy'; omega

theorem eq_of_id {blk : List (Item α)} (hn : (blk.map Item.id).Nodup) {x y : Item α} (hx : x ∈ blk)
    (hy : y ∈ blk) (h : x.id = y.id) : x = y :=
  List.inj_on_of_nodup_map hn hx hy h

theorem steps_ops {ctx : Ctx} {blk : List (Item α)} {d : Nat} {us : List Elt}
    (h : Linked ctx blk d us) (ho : NoOuter ctx d us) {v : Nat}
    (hv : v ∈ (steps d us).flatMap fun st => st.ops.filterMap fun o => o) :
    ∃ u ∈ us, Item.elt u ∈ blk ∧ v ∈ u.ops ∧ (ctx.isArg v = true ∨ isConst blk v = true) := by
  induction us generalizing d with
  | nil => simp [steps] at hv
  | cons u us ih =>
    simp only [steps, List.flatMap_cons, List.mem_append] at hv
    rcases hv with hv | hv
    · obtain ⟨o, h1, h2⟩ := List.mem_filterMap.1 hv
      obtain ⟨w, hw, he⟩ := List.mem_map.1 h1
      have hvw : w ≠ d ∧ w = v := by
        by_cases hwd : w = d
        · rw [if_pos hwd] at he; rw [← he] at h2; exact absurd h2 (by simp)
        · rw [if_neg hwd] at he; rw [← he] at h2; exact ⟨hwd, Option.some.inj h2⟩
      obtain ⟨hwd, rfl⟩ := hvw
      obtain ⟨-, hmem, hdu, hval⟩ := fusible_facts h.1
      refine ⟨u, by simp, hmem, hw, ?_⟩
      rcases inputsValid_facts hdu hval with hs | ⟨hs, -, -⟩
      · rw [hs] at hw; exact absurd (List.mem_singleton.1 hw) hwd
      · rcases hs w hw hwd with h' | h' | h'
        · exact Or.inl h'
        · exact Or.inr h'
        · rw [ho.1 w hw hwd] at h'; exact absurd h' (by simp)
    · obtain ⟨w, hw, h1⟩ := ih h.2 ho.2 hv
      exact ⟨w, List.mem_cons_of_mem _ hw, h1⟩

theorem linked_mem {ctx : Ctx} {blk : List (Item α)} {d : Nat} {us : List Elt}
    (h : Linked ctx blk d us) : ∀ u ∈ us, Item.elt u ∈ blk := by
  induction us generalizing d with
  | nil => simp
  | cons u us ih =>
    intro w hw
    rcases List.mem_cons.1 hw with rfl | hw
    · exact (fusible_facts h.1).2.1
    · exact ih h.2 w hw

theorem not_before {ctx : Ctx} {blk A m : List (Item α)} {D : Nat → Prop}
    (hn : (m.map Item.id).Nodup) (hA : ∀ x ∈ A, x ∈ m) (hm : ∀ x, x ∈ m ↔ x ∈ blk)
    (hav : Avail D A) (hD : ∀ x ∈ blk, ¬ D x.id) {d : Nat} {us : List Elt}
    (h : Linked ctx blk d us) (hd : ¬ D d) (hdA : d ∉ A.map Item.id) :
    ∀ u ∈ us, u.id ∉ A.map Item.id := by
  induction us generalizing d with
  | nil => simp
  | cons u us ih =>
    obtain ⟨-, hmem, hdu, -⟩ := fusible_facts h.1
    have hu : u.id ∉ A.map Item.id := by
      intro hu
      obtain ⟨x, hx, he⟩ := List.mem_map.1 hu
      have : x = .elt u := eq_of_id hn (hA x hx) ((hm _).2 hmem) he
      rw [this] at hx
      rcases hav.ops hx d hdu with h' | h'
      · exact hd h'
      · exact hdA h'
    intro w hw
    rcases List.mem_cons.1 hw with rfl | hw
    · exact hu
    · exact ih h.2 (hD _ hmem) hu w hw

theorem fuse_sound {sem : Sem α} {ctx : Ctx} {env0 env : Env α} {blk blk' m : List (Item α)} {root : Elt}
    {us : List Elt} (hwf : WF ctx env0 blk) (hrun : run sem ctx env0 blk = some env)
    (hty : Typed ctx env) (hsame : DimSound ctx env) (hroot : Item.elt root ∈ blk)
    (hlink : Linked ctx blk root.id us) (hm : hoistAll ctx root.id us blk = some m)
    (hb' : blk' = replace root us m)
    (hs : ∀ u ∈ us, Simple ctx env u)
    (hrs : ∀ ts, root.ops.mapM env = some ts → scalarsOf root.kind ts)
    (hc : ∀ u ∈ us, ∀ v ∈ u.ops, isConst blk v = true → v ∈ before root.id m) :
    ∃ env', run sem ctx env0 blk' = some env' ∧ ∀ v, v ∉ erased root.id us → env' v = env v := by
  obtain ⟨hle0, hav0, hfix, hdom⟩ := run_facts hrun hwf.nodup hwf.fresh
  obtain ⟨hperm, hav, hout⟩ := hoistAll_facts hwf.nodup hav0 hm
  have hn : (m.map Item.id).Nodup := (hperm.map Item.id).nodup_iff.2 hwf.nodup
  have hmb : ∀ x, x ∈ m ↔ x ∈ blk := fun x => hperm.mem_iff
  have huses : ∀ d, uses m d = uses blk d := fun d =>
    List.Perm.sum_eq (hperm.map _)
  obtain ⟨A, B, rfl⟩ := List.append_of_mem ((hmb _).2 hroot)
  have hnAB := hn
  rw [List.map_append, List.map_cons, List.nodup_append] at hnAB
  obtain ⟨hnA, hnB, hdis⟩ := hnAB
  rw [List.nodup_cons] at hnB
  have hrA : root.id ∉ A.map Item.id := fun h => hdis _ h root.id (by simp [Item.id]) rfl
  have hrB : root.id ∉ B.map Item.id := hnB.1
  have hbef : before root.id (A ++ Item.elt root :: B) = A.map Item.id := by
    unfold before
    congr 1
    rw [List.takeWhile_append_of_pos]
    · rw [List.takeWhile_cons_of_neg (by simp [Item.id]), List.append_nil]
    · intro x hx
      have : x.id ≠ root.id := fun h => hrA (List.mem_map.2 ⟨x, hx, h⟩)
      simpa using this
  rw [hbef] at hc
  obtain ⟨havA, havB⟩ := Avail.split.1 hav
  have hfr : ∀ x ∈ blk, ¬ env0 x.id ≠ none := fun x hx h => h (hwf.fresh x hx)
  have hchA := not_before hn (fun x hx => List.mem_append_left _ hx) hmb havA hfr hlink
    (hfr _ hroot) hrA
  have hrep : replace root us (A ++ Item.elt root :: B) =
      A ++ Item.fused (lastId root.id us) root (steps root.id us) ::
        B.filter fun x => !(us.any fun u => u.id == x.id) := by
    unfold replace
    rw [List.flatMap_append, List.flatMap_cons]
    have e1 : (A.flatMap fun x => if x.id = root.id then
        [Item.fused (lastId root.id us) root (steps root.id us)]
        else if us.any fun u => u.id == x.id then [] else [x]) = A := by
      have : ∀ l : List (Item α), (∀ x ∈ l, x ∈ A) → (l.flatMap fun x => if x.id = root.id then
          [Item.fused (lastId root.id us) root (steps root.id us)]
          else if us.any fun u => u.id == x.id then [] else [x]) = l := by
        intro l hl
        induction l with
        | nil => rfl
        | cons x l ih =>
          have hxA := hl x (by simp)
          rw [List.flatMap_cons, ih fun y hy => hl y (by simp [hy])]
          have h1 : x.id ≠ root.id := fun h => hrA (List.mem_map.2 ⟨x, hxA, h⟩)
          rw [if_neg h1, if_neg]
          · rfl
          · intro h
            obtain ⟨u, hu, he⟩ := List.any_eq_true.1 h
            have he : u.id = x.id := by simpa using he
            exact hchA u hu (he ▸ List.mem_map.2 ⟨x, hxA, rfl⟩)
      exact this A fun _ h => h
    have e2 : ∀ l : List (Item α), (∀ x ∈ l, x ∈ B) → (l.flatMap fun x => if x.id = root.id then
          [Item.fused (lastId root.id us) root (steps root.id us)]
          else if us.any fun u => u.id == x.id then [] else [x]) =
          l.filter fun x => !(us.any fun u => u.id == x.id) := by
      intro l hl
      induction l with
      | nil => rfl
      | cons x l ih =>
        rw [List.flatMap_cons, ih fun y hy => hl y (by simp [hy])]
        have h1 : x.id ≠ root.id := fun h => hrB (List.mem_map.2 ⟨x, hl x (by simp), h⟩)
        rw [if_neg h1]
        by_cases h2 : (us.any fun u => u.id == x.id) = true
        · rw [if_pos h2, List.filter_cons_of_neg (by simpa using h2)]; rfl
        · rw [if_neg h2, List.filter_cons_of_pos (by simpa using h2)]; rfl
    rw [e1, e2 B fun _ h => h]
    have : (Item.elt (α := α) root).id = root.id := rfl
    rw [if_pos this]; rfl
  rw [hrep] at hb'
  subst hb'
  obtain ⟨T, hT, hTv⟩ := fused_value hfix hty hsame hwf.consts hlink hout hs hroot hrs
  -- the operands are there
  have havail : Avail (fun v => env0 v ≠ none)
      (A ++ Item.fused (lastId root.id us) root (steps root.id us) ::
        B.filter fun x => !(us.any fun u => u.id == x.id)) := by
    refine Avail.split.2 ⟨havA, ?_, ?_⟩
    · intro v hv
      rcases List.mem_append.1 hv with hv | hv
      · exact havB.1 v hv
      · obtain ⟨u, hu, hub, hvu, h⟩ := steps_ops hlink hout hv
        rcases h with h | h
        · left
          obtain ⟨t, -, hval⟩ := hfix _ hub
          rcases hdom v (value_ops hval v hvu) with h' | h'
          · exact h'
          · exact absurd h' (hwf.args v h)
        · exact Or.inr (hc u hu v hvu h)
    · apply Avail.filter (E := fun v => v ∈ erased root.id us) havB.2
      · intro v hv he
        rcases hv with hv | hv
        · exact Or.inl hv
        · right
          have hv : v = root.id := hv
          rw [hv] at he ⊢
          exact ((erased_or_last root.id us).1).resolve_left he
      · intro x hx hp v hv he
        obtain ⟨u, hu, hfu⟩ := erased_next hlink he
        obtain ⟨h1, h2, h3, -⟩ := fusible_facts hfu
        have hne : x.id ≠ (Item.elt (α := α) u).id := by
          intro h
          have : (us.any fun u => u.id == x.id) = true :=
            List.any_eq_true.2 ⟨u, hu, by simpa [Item.id] using h.symm⟩
          simp [this] at hp
        have := two_uses (d := v) (List.mem_append_right A (List.mem_cons_of_mem _ hx)) ((hmb _).2 h2) hne hv h3
        rw [huses, h1] at this
        omega
      · intro x hx hp
        have hp' : (us.any fun u => u.id == x.id) = true := by simpa using hp
        obtain ⟨u, hu, he⟩ := List.any_eq_true.1 hp'
        have he : u.id = x.id := by simpa using he
        rcases (erased_or_last root.id us).2 u hu with h | h
        · left; rw [← he]; exact h
        · right; right; rw [← he]; exact h
  obtain ⟨env', r1, r2, r3, r4⟩ := run_build (e := env0) (env := env) hle0 (fun v h => h) havail (by
    intro x hx
    rcases List.mem_append.1 hx with hx | hx
    · exact hfix x ((hmb x).1 (List.mem_append_left _ hx))
    · rcases List.mem_cons.1 hx with rfl | hx
      · exact ⟨T, hT, hTv⟩
      · exact hfix x ((hmb x).1 (List.mem_append_right _ (List.mem_cons_of_mem _ (List.mem_filter.1 hx).1))))
  refine ⟨env', r1, ?_⟩
  intro v hv
  have key : env v ≠ none → env' v ≠ none := by
    intro h
    have hlast : env' (lastId root.id us) ≠ none :=
      r4 _ (List.mem_append_right A (List.mem_cons_self ..))
    rcases hdom v h with h' | h'
    · obtain ⟨t, ht⟩ := Option.ne_none_iff_exists'.1 h'
      rw [r3 v t ht]; simp
    · obtain ⟨x, hx, rfl⟩ := List.mem_map.1 h'
      rcases List.mem_append.1 ((hmb x).2 hx) with hxA | hxB
      · exact r4 x (List.mem_append_left _ hxA)
      · rcases List.mem_cons.1 hxB with rfl | hxB
        · have := ((erased_or_last root.id us).1).resolve_left hv
          show env' root.id ≠ none
          rw [this]; exact hlast
        · by_cases hp : (us.any fun u => u.id == x.id) = true
          · obtain ⟨u, hu, he⟩ := List.any_eq_true.1 hp
            have he : u.id = x.id := by simpa using he
            rw [← he] at hv ⊢
            rw [((erased_or_last root.id us).2 u hu).resolve_left hv]
            exact hlast
          · exact r4 x (List.mem_append_right _ (List.mem_cons_of_mem _
              (List.mem_filter.2 ⟨hxB, by simpa using hp⟩)))
  cases he : env v with
  | none =>
    cases he' : env' v with
    | none => rfl
    | some t => rw [r2 v t he'] at he; exact absurd he (by simp)
  | some t =>
    obtain ⟨t', ht'⟩ := Option.ne_none_iff_exists'.1 (key (by simp [he]))
    rw [ht', ← r2 v t' ht', he]

end Verif.Fusion
