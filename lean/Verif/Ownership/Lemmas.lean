import Verif.Ownership.Model
/-!
# The memory of inputs and outputs: lemmas (C112)
-/
namespace Verif.Ownership

theorem Owns.perm {h0 h : Heap} {L L' : List Nat} (o : Owns h0 h L) (p : L.Perm L') :
    Owns h0 h L' :=
  ⟨fun b => by
      rw [o.live b]
      congr 1
      rw [Bool.eq_iff_iff, List.contains_iff_mem, List.contains_iff_mem, p.mem_iff],
    p.nodup_iff.mp o.nodup, fun b hb => o.fresh b (p.mem_iff.mpr hb), o.ok⟩

theorem Owns.refl {h : Heap} (ok : h.Ok) : Owns h h [] :=
  ⟨fun b => by simp, by simp, by simp, ok⟩

theorem Owns.mem_live {h0 h : Heap} {L : List Nat} (o : Owns h0 h L) {b : Nat} (hb : b ∈ L) :
    h.live b = true := by
  rw [o.live b]; simp [hb]

theorem Owns.next_fresh {h0 h : Heap} {L : List Nat} (o : Owns h0 h L) {b : Nat}
    (hb : h.next ≤ b) : b ∉ L ∧ h0.live b = false := by
  have : h.live b = false := by
    rw [Bool.eq_false_iff]
    intro e
    have := o.ok b e
    omega
  rw [o.live b] at this
  simp at this
  exact ⟨this.2, this.1⟩

theorem Owns.alloc {h0 h : Heap} {L : List Nat} (o : Owns h0 h L) :
    Owns h0 h.alloc.2 (h.alloc.1 :: L) := by
  have hn := o.next_fresh (Nat.le_refl h.next)
  refine ⟨fun b => ?_, ?_, ?_, ?_⟩
  · simp only [Heap.alloc]
    rw [o.live b]
    by_cases hb : b = h.next <;> simp [hb]
  · exact List.nodup_cons.mpr ⟨hn.1, o.nodup⟩
  · intro b hb
    rcases List.mem_cons.mp hb with rfl | hb
    · exact hn.2
    · exact o.fresh b hb
  · intro b hb
    simp only [Heap.alloc, Bool.or_eq_true, decide_eq_true_eq] at hb ⊢
    rcases hb with rfl | hb
    · omega
    · have := o.ok b hb; omega

theorem Owns.free {h0 h : Heap} {b : Nat} {L : List Nat} (o : Owns h0 h (b :: L)) :
    ∃ h', h.free b = some h' ∧ Owns h0 h' L := by
  have hb := o.mem_live (b := b) (by simp)
  obtain ⟨hn, hL⟩ := List.nodup_cons.mp o.nodup
  refine ⟨{ h with live := fun x => x ≠ b && h.live x }, by simp [Heap.free, hb], ?_, hL,
    fun x hx => o.fresh x (by simp [hx]), ?_⟩
  · intro x
    simp only
    rw [o.live x]
    by_cases hx : x = b
    · subst hx
      simp [hn, o.fresh x (by simp)]
    · simp [hx]
  · intro x hx
    simp only [Bool.and_eq_true] at hx
    exact o.ok x hx.2

/-! ## Tensors -/

theorem destroy_ok {h0 h : Heap} {t : Omt} {L : List Nat} (g : GoodOwn t)
    (o : Owns h0 h (blocks t ++ L)) :
    ∃ h', omTensorDestroy h t = some h' ∧ Owns h0 h' L := by
  unfold omTensorDestroy
  by_cases ho : t.owning = true
  · obtain ⟨b, hb⟩ := g ho
    simp only [blocks, ownBlocks, ho, if_true, hb, List.cons_append, List.nil_append] at o ⊢
    obtain ⟨h1, e1, o1⟩ := o.free
    obtain ⟨h2, e2, o2⟩ := o1.free
    exact ⟨h2, by simp [e1, e2], o2⟩
  · have ho' : t.owning = false := by simpa using ho
    simp only [blocks, ownBlocks, ho', Bool.false_eq_true, if_false, List.nil_append,
      List.cons_append] at o ⊢
    exact o.free

theorem destroyAll_ok {h0 h : Heap} {ts : List Omt} {L : List Nat} (g : ∀ t ∈ ts, GoodOwn t)
    (o : Owns h0 h (ts.flatMap blocks ++ L)) :
    ∃ h', destroyAll h ts = some h' ∧ Owns h0 h' L := by
  induction ts generalizing h with
  | nil => exact ⟨h, rfl, by simpa using o⟩
  | cons t ts ih =>
    rw [List.flatMap_cons, List.append_assoc] at o
    obtain ⟨h1, e1, o1⟩ := destroy_ok (g t (by simp)) o
    obtain ⟨h2, e2, o2⟩ := ih (fun x hx => g x (by simp [hx])) o1
    exact ⟨h2, by simp [destroyAll, e1, e2], o2⟩

theorem blocks_perm (ts : List Omt) :
    (ts.flatMap blocks).Perm (ts.flatMap ownBlocks ++ ts.map (·.meta_)) := by
  induction ts with
  | nil => simp
  | cons t ts ih =>
    simp only [List.flatMap_cons, blocks, List.map_cons, List.append_assoc]
    refine List.Perm.append_left _ ?_
    refine (List.Perm.append_left _ ih).trans ?_
    simp only [List.cons_append, List.nil_append]
    exact List.perm_middle.symm

/-! ## The compiled function -/

theorem shouldOwn_eq (choice : Nat → Bool) (s : Src) (h : s.Plain) :
    shouldOwn s = (newBuffer choice s).isSome := by
  induction s with
  | arg i => rfl
  | alloc k => rfl
  | global g => rfl
  | view s off ih => exact ih h
  | select c t f iht ihf =>
    obtain ⟨ht, hf, he⟩ := h
    have he := he choice
    simp only [shouldOwn, newBuffer]
    rw [iht ht, ihf hf, ← he]
    cases choice c <;> simp [he]
  | join c t f _ _ => exact h.elim

theorem eval_new (args : Nat → Ptr) (base : Nat) (choice : Nat → Bool) (s : Src) {k : Nat}
    (h : newBuffer choice s = some k) : (eval args base choice s).place = .heap (base + k) := by
  induction s with
  | arg i => simp [newBuffer] at h
  | alloc j =>
    simp only [newBuffer, Option.some.injEq] at h
    simp [eval, h]
  | global g => simp [newBuffer] at h
  | view s off ih => simpa [eval] using ih h
  | select c t f iht ihf =>
    simp only [newBuffer, eval] at h ⊢
    cases hc : choice c
    · rw [hc] at h; exact ihf h
    · rw [hc] at h; exact iht h
  | join c t f iht ihf =>
    simp only [newBuffer, eval] at h ⊢
    cases hc : choice c
    · rw [hc] at h; exact ihf h
    · rw [hc] at h; exact iht h

theorem eval_old (args : Nat → Ptr) (base : Nat) (choice : Nat → Bool) (s : Src)
    (h : newBuffer choice s = none) :
    (∃ g, (eval args base choice s).place = .static g) ∨
      ∃ i, argumentOf choice s = some i ∧
        (eval args base choice s).place = (args i).place := by
  induction s with
  | arg i => exact .inr ⟨i, rfl, rfl⟩
  | alloc j => simp [newBuffer] at h
  | global g => exact .inl ⟨g, rfl⟩
  | view s off ih => simpa [eval, argumentOf] using ih h
  | select c t f iht ihf =>
    simp only [newBuffer, eval, argumentOf] at h ⊢
    cases hc : choice c
    · rw [hc] at h; simpa [hc] using ihf h
    · rw [hc] at h; simpa [hc] using iht h
  | join c t f iht ihf =>
    simp only [newBuffer, eval, argumentOf] at h ⊢
    cases hc : choice c
    · rw [hc] at h; simpa [hc] using ihf h
    · rw [hc] at h; simpa [hc] using iht h

/-- The new buffers that are returned. -/
def returned (p : Prog) (choice : Nat → Bool) (base : Nat) : List Nat :=
  ((List.range p.buffers).filter fun k =>
    (p.outputs.filterMap (newBuffer choice)).contains k).map (base + ·)

theorem mem_returned (p : Prog) (choice : Nat → Bool) (base b : Nat)
    (hk : ∀ s ∈ p.outputs, ∀ k, newBuffer choice s = some k → k < p.buffers) :
    b ∈ returned p choice base ↔ ∃ k ∈ p.outputs.filterMap (newBuffer choice), base + k = b := by
  unfold returned
  simp only [List.mem_map, List.mem_filter, List.mem_range, List.contains_iff_mem]
  constructor
  · rintro ⟨k, ⟨_, h⟩, e⟩
    exact ⟨k, h, e⟩
  · rintro ⟨k, h, e⟩
    obtain ⟨s, hs, hsk⟩ := List.mem_filterMap.mp h
    exact ⟨k, ⟨hk s hs k hsk, h⟩, e⟩

theorem returned_nodup (p : Prog) (choice : Nat → Bool) (base : Nat) :
    (returned p choice base).Nodup := by
  unfold returned
  refine List.Pairwise.map _ (fun a b hab => ?_) (List.nodup_range.filter _)
  intro e
  exact hab (by omega)

theorem runBuffers_owns {h0 h : Heap} {L : List Nat} (p : Prog) (choice : Nat → Bool)
    (hk : ∀ s ∈ p.outputs, ∀ k, newBuffer choice s = some k → k < p.buffers)
    (o : Owns h0 h L) :
    Owns h0 (runBuffers p choice h) (returned p choice h.next ++ L) := by
  have hge : ∀ b ∈ returned p choice h.next, h.next ≤ b ∧ b < h.next + p.buffers := by
    intro b hb
    rw [mem_returned p choice h.next b hk] at hb
    obtain ⟨k, hk', rfl⟩ := hb
    obtain ⟨s, hs, hsk⟩ := List.mem_filterMap.mp hk'
    have := hk s hs k hsk
    omega
  refine ⟨fun b => ?_, ?_, ?_, ?_⟩
  · simp only [runBuffers]
    rw [o.live b, Bool.eq_iff_iff]
    simp only [Bool.or_eq_true, Bool.and_eq_true, decide_eq_true_eq, List.any_eq_true,
      List.contains_iff_mem, List.mem_append]
    have hm := mem_returned p choice h.next b hk
    constructor
    · rintro ((h1 | h1) | ⟨_, k, h1, h2⟩)
      · exact .inl h1
      · exact .inr (.inr h1)
      · exact .inr (.inl (hm.mpr ⟨k, h1, h2⟩))
    · rintro (h1 | h1 | h1)
      · exact .inl (.inl h1)
      · exact .inr ⟨hge b h1, hm.mp h1⟩
      · exact .inl (.inr h1)
  · rw [List.nodup_append]
    refine ⟨returned_nodup p choice h.next, o.nodup, ?_⟩
    intro a ha b hb e
    subst e
    exact (o.next_fresh (hge a ha).1).1 hb
  · intro b hb
    rcases List.mem_append.mp hb with hb | hb
    · exact (o.next_fresh (hge b hb).1).2
    · exact o.fresh b hb
  · intro b hb
    simp only [runBuffers, Bool.or_eq_true, Bool.and_eq_true, decide_eq_true_eq] at hb ⊢
    rcases hb with hb | hb
    · have := o.ok b hb; omega
    · exact hb.1.2

theorem wrap_owns {h0 h : Heap} {L : List Nat} (args : Nat → Ptr) (base : Nat)
    (choice : Nat → Bool) (l : List (Src × Bool)) (o : Owns h0 h L) :
    Owns h0 (wrap args base choice h l).1
      ((wrap args base choice h l).2.map (·.meta_) ++ L) ∧
      (wrap args base choice h l).2.map (fun t => (t.data, t.owning)) =
        l.map fun e => (eval args base choice e.1, e.2) := by
  induction l generalizing h L with
  | nil => exact ⟨by simpa [wrap] using o, rfl⟩
  | cons e l ih =>
    obtain ⟨s, own⟩ := e
    obtain ⟨h1, h2⟩ := ih o.alloc
    simp only [wrap, List.map_cons, List.cons_append]
    exact ⟨h1.perm List.perm_middle, by rw [h2]⟩

theorem owns_zip (p : Prog) (hf : p.entry = 0) :
    p.outputs.zip (ownerships p.entries) = p.outputs.map fun s => (s, shouldOwn s) := by
  unfold Prog.outputs
  rw [hf]
  cases h : p.entries with
  | nil => simp [ownerships]
  | cons l ls =>
    simp only [List.getElem?_cons_zero, Option.getD_some, ownerships]
    clear h
    induction l with
    | nil => rfl
    | cons s l ih => simp [ih]

/-- The entry point. -/
theorem entry_ok {h0 h : Heap} {L : List Nat} (p : Prog) (choice : Nat → Bool) (args : Nat → Ptr)
    (hp : p.Ok choice) (o : Owns h0 h L) :
    ∃ h' ts l, entryPoint p choice args h = (h', some (ts, l)) ∧
      Owns h0 h' (l :: (ts.map (·.meta_) ++ (returned p choice h.next ++ L))) ∧
      ts.map (fun t => (t.data, t.owning)) =
        p.outputs.map fun s => (eval args h.next choice s, (newBuffer choice s).isSome) := by
  have o1 := runBuffers_owns p choice hp.below o
  obtain ⟨o2, e2⟩ := wrap_owns args h.next choice
    (p.outputs.zip (ownerships p.entries)) o1
  refine ⟨_, _, _, ?_, o2.alloc, ?_⟩
  · unfold entryPoint
    rw [hp.succeeds]
    rfl
  · rw [e2, owns_zip p hp.first, List.map_map]
    apply List.map_congr_left
    intro s hs
    simp only [Function.comp_apply]
    rw [shouldOwn_eq choice s (hp.plain s hs)]

theorem ownBlocks_of (ts : List Omt) (args : Nat → Ptr) (base : Nat) (choice : Nat → Bool)
    (l : List Src)
    (e : ts.map (fun t => (t.data, t.owning)) =
      l.map fun s => (eval args base choice s, (newBuffer choice s).isSome)) :
    ts.flatMap ownBlocks = (l.filterMap (newBuffer choice)).map (base + ·) ∧
      ∀ t ∈ ts, GoodOwn t := by
  induction l generalizing ts with
  | nil =>
    cases ts with
    | nil => simp
    | cons t ts => simp at e
  | cons s l ih =>
    cases ts with
    | nil => simp at e
    | cons t ts =>
      simp only [List.map_cons, List.cons.injEq, Prod.mk.injEq] at e
      obtain ⟨⟨e1, e2⟩, e3⟩ := e
      obtain ⟨i1, i2⟩ := ih ts e3
      rw [List.flatMap_cons, i1]
      cases hn : newBuffer choice s with
      | none =>
        rw [hn] at e2
        have e2 : t.owning = false := by simpa using e2
        refine ⟨by simp [ownBlocks, e2, hn], ?_⟩
        intro x hx
        rcases List.mem_cons.mp hx with rfl | hx
        · intro h; rw [e2] at h; cases h
        · exact i2 x hx
      | some k =>
        rw [hn] at e2
        have e2 : t.owning = true := by simpa using e2
        have hp := eval_new args base choice s hn
        rw [← e1] at hp
        refine ⟨by simp [ownBlocks, e2, hn, hp], ?_⟩
        intro x hx
        rcases List.mem_cons.mp hx with rfl | hx
        · exact fun _ => ⟨_, hp⟩
        · exact i2 x hx

theorem returned_perm (p : Prog) (choice : Nat → Bool) (base : Nat) (hp : p.Ok choice)
    (hd : (p.outputs.filterMap (newBuffer choice)).Nodup) :
    (returned p choice base).Perm ((p.outputs.filterMap (newBuffer choice)).map (base + ·)) := by
  rw [List.perm_ext_iff_of_nodup (returned_nodup p choice base)
    (List.Pairwise.map _ (fun a b hab e => hab (by omega)) hd)]
  intro b
  rw [mem_returned p choice base b hp.below, List.mem_map]

theorem perm_eraseIdx {α : Type} (l : List α) (i : Nat) (hi : i < l.length) :
    l.Perm (l[i] :: l.eraseIdx i) := by
  induction l generalizing i with
  | nil => simp at hi
  | cons x l ih =>
    cases i with
    | zero => simp
    | succ i =>
      simp only [List.getElem_cons_succ, List.eraseIdx_cons_succ]
      exact (List.Perm.cons x (ih i (by simpa using hi))).trans (List.Perm.swap _ _ _)

/-! ## C++ -/

theorem cppRun_ok {h0 h : Heap} (p : Prog) (choice : Nat → Bool) (ins : List Omt)
    (hp : p.Ok choice) (hins : ∀ t ∈ ins, GoodOwn t) (o : Owns h0 h (ins.flatMap blocks))
    (hd : (p.outputs.filterMap (newBuffer choice)).Nodup) :
    ∃ h' ts base, cppRun p choice h ins = some (h', .ok ts) ∧ Owns h0 h' (ts.flatMap blocks) ∧
      (∀ t ∈ ts, GoodOwn t) ∧
      ts.map (fun t => (t.data, t.owning)) =
        p.outputs.map fun s => (eval (argOf ins) base choice s, (newBuffer choice s).isSome) := by
  have o1 := o.alloc
  obtain ⟨h2, ts, l, e2, o2, m2⟩ := entry_ok p choice (argOf ins) hp o1
  obtain ⟨w1, w2⟩ := ownBlocks_of ts _ _ _ _ m2
  have o3 : Owns h0 h2 (h.alloc.1 :: l :: (ins.flatMap blocks ++ ts.flatMap blocks)) := by
    refine o2.perm ?_
    have pb := blocks_perm ts
    rw [w1] at pb
    have pr := returned_perm p choice h.alloc.2.next hp hd
    -- l :: metas ++ (R ++ list :: ins)
    refine (List.Perm.cons l ?_).trans (List.Perm.swap _ _ _)
    refine (List.Perm.append_left _ (List.perm_middle (l₁ := returned p choice h.alloc.2.next))).trans ?_
    refine List.perm_middle.trans (List.Perm.cons _ ?_)
    refine (List.Perm.trans ?_ (List.perm_append_comm (l₁ := ts.flatMap blocks)))
    rw [← List.append_assoc]
    refine List.Perm.append_right _ ?_
    refine List.perm_append_comm.trans ?_
    exact (List.Perm.append_right _ pr).trans pb.symm
  obtain ⟨h3, e3, o4⟩ := o3.free
  obtain ⟨h4, e4, o5⟩ := o4.free
  obtain ⟨h5, e5, o6⟩ := destroyAll_ok hins o5
  refine ⟨h5, ts, _, ?_, o6, w2, m2⟩
  unfold cppRun
  simp only
  rw [e2]
  simp only [e3]
  simp [e4, e5]

theorem cppDrops_ok {h0 h : Heap} (ts : List Omt) (g : ∀ t ∈ ts, GoodOwn t)
    (o : Owns h0 h (ts.flatMap blocks)) (is : List Nat) :
    ∃ h' ts', cppDrops h ts is = some (h', ts') ∧ ts'.Sublist ts ∧
      Owns h0 h' (ts'.flatMap blocks) := by
  induction is generalizing h ts with
  | nil => exact ⟨h, ts, rfl, List.Sublist.refl _, o⟩
  | cons i is ih =>
    simp only [cppDrops]
    cases ht : ts[i]? with
    | none => exact ih ts g o
    | some t =>
      have hmem := List.mem_of_getElem? ht
      have hp : ts.Perm (t :: ts.eraseIdx i) := by
        obtain ⟨hi, e⟩ := List.getElem?_eq_some_iff.mp ht
        rw [← e]
        exact perm_eraseIdx ts i hi
      have o' : Owns h0 h (blocks t ++ (ts.eraseIdx i).flatMap blocks) := by
        have := o.perm (hp.flatMap_right blocks)
        rwa [List.flatMap_cons] at this
      obtain ⟨h1, e1, o1⟩ := destroy_ok (g t hmem) o'
      have hsub := List.eraseIdx_sublist ts i
      obtain ⟨h2, ts2, e2, s2, o2⟩ := ih (ts.eraseIdx i) (fun x hx => g x (hsub.subset hx)) o1
      exact ⟨h2, ts2, by simp [e1, e2], s2.trans hsub, o2⟩

/-! ## Python -/

theorem addInput_ok {h0 h : Heap} {L : List Nat} (i : PyIn) (h1 : i.contiguous = true)
    (h2 : i.kind ≠ .unsupported) (h3 : i.kind = .string → i.writeable = true) (o : Owns h0 h L) :
    ∃ h' t, addInput h i = (h', .ok t) ∧ Owns h0 h' (blocks t ++ L) ∧ GoodOwn t := by
  unfold addInput
  cases hk : i.kind with
  | unsupported => exact (h2 hk).elim
  | string =>
    have hw := h3 hk
    simp only [h1, Bool.not_true, Bool.false_eq_true, if_false, hw, if_true]
    refine ⟨_, _, rfl, ?_, fun _ => ⟨_, rfl⟩⟩
    have := o.alloc.alloc
    simp only [blocks, ownBlocks, if_true, List.cons_append, List.nil_append]
    exact this.perm (List.Perm.swap _ _ _)
  | numeric =>
    by_cases hw : i.writeable = true
    · simp only [h1, Bool.not_true, Bool.false_eq_true, if_false, hw, if_true]
      refine ⟨_, _, rfl, ?_, fun h => by cases h⟩
      simpa [blocks, ownBlocks] using o.alloc
    · simp only [h1, Bool.not_true, Bool.false_eq_true, if_false, hw]
      refine ⟨_, _, rfl, ?_, fun _ => ⟨_, rfl⟩⟩
      have := o.alloc.alloc
      simp only [blocks, ownBlocks, if_true, List.cons_append, List.nil_append]
      exact this.perm (List.Perm.swap _ _ _)

theorem addInputs_ok {h0 h : Heap} {L : List Nat} (ins : List PyIn)
    (hi : ∀ i ∈ ins, i.contiguous = true ∧ i.kind ≠ .unsupported ∧
      (i.kind = .string → i.writeable = true)) (o : Owns h0 h L) :
    ∃ h' ts, addInputs h ins = (h', .ok ts) ∧ Owns h0 h' (ts.flatMap blocks ++ L) ∧
      ∀ t ∈ ts, GoodOwn t := by
  induction ins generalizing h L with
  | nil => exact ⟨h, [], rfl, by simpa using o, by simp⟩
  | cons i ins ih =>
    obtain ⟨a1, a2, a3⟩ := hi i (by simp)
    obtain ⟨h1, t, e1, o1, g1⟩ := addInput_ok i a1 a2 a3 o
    obtain ⟨h2, ts, e2, o2, g2⟩ := ih (fun j hj => hi j (by simp [hj])) o1
    refine ⟨h2, t :: ts, by simp [addInputs, e1, e2], ?_, ?_⟩
    · rw [List.flatMap_cons]
      refine o2.perm ?_
      rw [← List.append_assoc]
      exact List.Perm.append_right _ List.perm_append_comm
    · intro x hx
      rcases List.mem_cons.mp hx with rfl | hx
      · exact g1
      · exact g2 x hx

/-- Tensors and the arrays made of them, with the copies. -/
inductive Rel (force : Bool) : List Omt → List Arr → List Nat → Prop
  | nil : Rel force [] [] []
  | cap {t ts as cs} : (t.owning && !force) = true → Rel force ts as cs →
      Rel force (t :: ts) (⟨t.data, .capsule t.data⟩ :: as) cs
  | copy {t ts as cs} (b : Nat) : (t.owning && !force) = false → Rel force ts as cs →
      Rel force (t :: ts) (⟨⟨.heap b, 0⟩, .own b⟩ :: as) (b :: cs)

/-- Capsules free the block they are kept under. -/
def CapsOk (caps : Caps) : Prop := ∀ e ∈ caps, e.2 = e.1.place

theorem find_mem {caps : Caps} (hc : CapsOk caps) {key : Ptr} (h : ∃ p, (key, p) ∈ caps) :
    caps.find key = some key.place := by
  unfold Caps.find
  obtain ⟨p, hp⟩ := h
  cases hf : List.find? (fun e : Ptr × Place => decide (e.1 = key)) caps with
  | none =>
    have := List.find?_eq_none.mp hf (key, p) hp
    simp at this
  | some e =>
    have h1 := List.find?_some hf
    have h2 := List.mem_of_find?_eq_some hf
    simp only [decide_eq_true_eq] at h1
    simp [hc e h2, h1]

/-- The tensors after the loop. -/
def disown (force : Bool) (t : Omt) : Omt :=
  if t.owning && !force then { t with owning := false } else t

theorem outLoop_ok {h0 h : Heap} {L : List Nat} (force : Bool) (caps : Caps) (ts : List Omt)
    (o : Owns h0 h L) (hc : CapsOk caps) :
    ∃ h' caps' as cs, outLoop force h caps ts = (h', caps', ts.map (disown force), as) ∧
      Owns h0 h' (cs ++ L) ∧ Rel force ts as cs ∧ CapsOk caps' ∧ (∀ e ∈ caps, e ∈ caps') ∧
      (∀ a ∈ as, ∀ key, a.base = .capsule key → ∃ p, (key, p) ∈ caps') := by
  induction ts generalizing h L caps with
  | nil => exact ⟨h, caps, [], [], rfl, by simpa using o, .nil, hc, fun _ h => h, by simp⟩
  | cons t ts ih =>
    unfold outLoop
    by_cases ht : (t.owning && !force) = true
    · simp only [ht, if_true]
      generalize hcc : caps.add t.data = caps1
      have hsub : ∀ e ∈ caps, e ∈ caps1 := by
        intro e he
        rw [← hcc, Caps.add]
        split
        · exact he
        · exact List.mem_append_left _ he
      have hok : CapsOk caps1 := by
        rw [← hcc, Caps.add]
        split
        · exact hc
        · intro e he
          rcases List.mem_append.mp he with he | he
          · exact hc e he
          · rw [List.mem_singleton] at he
            subst he; rfl
      have hin : ∃ p, (t.data, p) ∈ caps1 := by
        rw [← hcc, Caps.add]
        cases hf : caps.find t.data with
        | none => exact ⟨t.data.place, by simp⟩
        | some q =>
          unfold Caps.find at hf
          rw [Option.map_eq_some_iff] at hf
          obtain ⟨e, he, _⟩ := hf
          have h1 := List.find?_some he
          have h2 := List.mem_of_find?_eq_some he
          simp only [decide_eq_true_eq] at h1
          exact ⟨e.2, by rw [← h1]; exact h2⟩
      obtain ⟨h', caps', as, cs, e, o', r, c1, c2, c3⟩ := ih caps1 o hok
      refine ⟨h', caps', _, cs, ?_, o', .cap ht r, c1, fun e he => c2 e (hsub e he), ?_⟩
      · rw [e]; simp [disown, ht]
      · intro a ha key hk
        rcases List.mem_cons.mp ha with rfl | ha
        · simp only [Base.capsule.injEq] at hk
          subst hk
          obtain ⟨p, hp⟩ := hin
          exact ⟨p, c2 _ hp⟩
        · exact c3 a ha key hk
    · have ht' : (t.owning && !force) = false := by simpa using ht
      simp only [ht', Bool.false_eq_true, if_false]
      obtain ⟨h', caps', as, cs, e, o', r, c1, c2, c3⟩ := ih caps o.alloc hc
      refine ⟨h', caps', _, h.alloc.1 :: cs, ?_, o'.perm List.perm_middle, .copy _ ht' r, c1, c2,
        ?_⟩
      · rw [e]; simp [disown, ht']
      · intro a ha key hk
        rcases List.mem_cons.mp ha with rfl | ha
        · simp at hk
        · exact c3 a ha key hk

/-- The block an array keeps. -/
def baseBlock (a : Arr) : Option Nat :=
  match a.base with
  | .own b => some b
  | .capsule key =>
    match key.place with
    | .heap b => some b
    | .static _ => none

/-- What holds while arrays are dropped. -/
structure PyInv (h0 : Heap) (st : PySt) : Prop where
  live : ∀ b, st.heap.live b = (h0.live b || st.arrays.any fun a => baseBlock a = some b)
  fresh : ∀ a ∈ st.arrays, ∃ b, baseBlock a = some b ∧ h0.live b = false ∧
    a.data.place = .heap b
  caps : ∀ a ∈ st.arrays, ∀ key, a.base = .capsule key → st.caps.find key = some key.place
  shared : st.arrays.Pairwise fun a a' =>
    baseBlock a = baseBlock a' → ∃ key, a.base = .capsule key ∧ a'.base = .capsule key

theorem free_spec {h : Heap} {b : Nat} (hb : h.live b = true) :
    h.free b = some { h with live := fun x => x ≠ b && h.live x } := by
  simp [Heap.free, hb]

theorem pyDrop_ok {h0 : Heap} {st : PySt} (inv : PyInv h0 st) (i : Nat) :
    ∃ st', pyDrop st i = some st' ∧ PyInv h0 st' ∧ st'.arrays.Sublist st.arrays := by
  unfold pyDrop
  cases ha : st.arrays[i]? with
  | none => exact ⟨st, rfl, inv, List.Sublist.refl _⟩
  | some a =>
    have hmem := List.mem_of_getElem? ha
    have hsub := List.eraseIdx_sublist st.arrays i
    have hperm : st.arrays.Perm (a :: st.arrays.eraseIdx i) := by
      obtain ⟨hi, e⟩ := List.getElem?_eq_some_iff.mp ha
      rw [← e]
      exact perm_eraseIdx st.arrays i hi
    obtain ⟨b, hb, hb0, hd⟩ := inv.fresh a hmem
    have hlive : st.heap.live b = true := by
      rw [inv.live b, Bool.or_eq_true, List.any_eq_true]
      exact .inr ⟨a, hmem, by simpa using hb⟩
    have hpair : ∀ a' ∈ st.arrays.eraseIdx i, baseBlock a' = some b →
        ∃ key, a.base = .capsule key ∧ a'.base = .capsule key := by
      have hsymm := hperm.pairwise (R := fun a a' : Arr =>
        baseBlock a = baseBlock a' → ∃ key, a.base = .capsule key ∧ a'.base = .capsule key)
        inv.shared (fun h e => by
          obtain ⟨key, k1, k2⟩ := h e.symm
          exact ⟨key, k2, k1⟩)
      intro a' ha' e
      exact (List.pairwise_cons.mp hsymm).1 a' ha' (hb.trans e.symm)
    -- the heap without the block
    have hfree : (∀ a' ∈ st.arrays.eraseIdx i, baseBlock a' ≠ some b) →
        PyInv h0 ⟨{ st.heap with live := fun x => x ≠ b && st.heap.live x }, st.caps,
          st.arrays.eraseIdx i⟩ := by
      intro hno
      refine ⟨fun x => ?_, fun a' ha' => inv.fresh a' (hsub.subset ha'),
        fun a' ha' => inv.caps a' (hsub.subset ha'), inv.shared.sublist hsub⟩
      simp only
      by_cases hx : x = b
      · subst hx
        simp only [ne_eq, not_true_eq_false, decide_false, Bool.false_and, hb0, Bool.false_or]
        symm
        rw [Bool.eq_false_iff]
        intro e
        rw [List.any_eq_true] at e
        obtain ⟨a', ha', e⟩ := e
        exact hno a' ha' (by simpa using e)
      · simp only [ne_eq, hx, not_false_eq_true, decide_true, Bool.true_and]
        rw [inv.live x, hperm.any_eq]
        have : baseBlock a ≠ some x := by
          rw [hb]; intro e; exact hx (Option.some.inj e).symm
        simp [this]
    simp only
    cases hbase : a.base with
    | own c =>
      rw [release]
      have hc : c = b := by simpa [baseBlock, hbase] using hb
      subst hc
      refine ⟨_, ?_, hfree ?_, hsub⟩
      · simp only [free_spec hlive, Option.map_some]
      · intro a' ha' e
        obtain ⟨key, k1, _⟩ := hpair a' ha' e
        rw [hbase] at k1; cases k1
    | capsule key =>
      simp only [release]
      have hkb : key.place = .heap b := by
        unfold baseBlock at hb
        rw [hbase] at hb
        simp only at hb
        split at hb
        · rename_i x hx
          rw [hx]; congr 1; exact Option.some.inj hb
        · cases hb
      by_cases hany : (st.arrays.eraseIdx i).any (fun a' => a'.base = .capsule key) = true
      · rw [if_pos hany]
        refine ⟨_, rfl, ⟨fun x => ?_, fun a' ha' => inv.fresh a' (hsub.subset ha'),
          fun a' ha' => inv.caps a' (hsub.subset ha'), inv.shared.sublist hsub⟩, hsub⟩
        simp only
        rw [inv.live x, hperm.any_eq]
        rw [List.any_cons]
        by_cases hx : baseBlock a = some x
        · have : (st.arrays.eraseIdx i).any (fun a' => decide (baseBlock a' = some x)) = true := by
            rw [List.any_eq_true] at hany ⊢
            obtain ⟨a', ha', e⟩ := hany
            refine ⟨a', ha', ?_⟩
            have e : a'.base = .capsule key := by simpa using e
            rw [decide_eq_true_eq, ← hx]
            simp only [baseBlock, e, hbase]
          rw [this]; simp
        · simp [hx]
      · rw [if_neg hany]
        refine ⟨_, ?_, hfree ?_, hsub⟩
        · unfold freeCapsule
          rw [inv.caps a hmem key hbase, hkb]
          simp only [free_spec hlive, Option.map_some]
        · intro a' ha' e
          obtain ⟨key', k1, k2⟩ := hpair a' ha' e
          rw [hbase] at k1
          cases k1
          exact hany (List.any_eq_true.mpr ⟨a', ha', by simpa using k2⟩)

theorem pyDrops_ok {h0 : Heap} {st : PySt} (inv : PyInv h0 st) (is : List Nat) :
    ∃ st', pyDrops st is = some st' ∧ PyInv h0 st' ∧ st'.arrays.Sublist st.arrays := by
  induction is generalizing st with
  | nil => exact ⟨st, rfl, inv, List.Sublist.refl _⟩
  | cons i is ih =>
    obtain ⟨st1, e1, i1, s1⟩ := pyDrop_ok inv i
    obtain ⟨st2, e2, i2, s2⟩ := ih i1
    exact ⟨st2, by simp [pyDrops, e1, e2], i2, s2.trans s1⟩

/-! ## From the loop to the invariant -/

theorem rel_mem {force : Bool} {ts : List Omt} {as : List Arr} {cs : List Nat}
    (r : Rel force ts as cs) : ∀ a ∈ as,
      (∃ t ∈ ts, (t.owning && !force) = true ∧ a = ⟨t.data, .capsule t.data⟩) ∨
        ∃ b ∈ cs, a = ⟨⟨.heap b, 0⟩, .own b⟩ := by
  induction r with
  | nil => simp
  | cap ht _ ih =>
    intro a ha
    rcases List.mem_cons.mp ha with rfl | ha
    · exact .inl ⟨_, by simp, ht, rfl⟩
    · rcases ih a ha with ⟨t, h1, h2⟩ | h
      · exact .inl ⟨t, by simp [h1], h2⟩
      · exact .inr h
  | copy b _ _ ih =>
    intro a ha
    rcases List.mem_cons.mp ha with rfl | ha
    · exact .inr ⟨b, by simp, rfl⟩
    · rcases ih a ha with ⟨t, h1, h2⟩ | ⟨c, h1, h2⟩
      · exact .inl ⟨t, by simp [h1], h2⟩
      · exact .inr ⟨c, by simp [h1], h2⟩

theorem rel_length {force : Bool} {ts : List Omt} {as : List Arr} {cs : List Nat}
    (r : Rel force ts as cs) : as.length = ts.length := by
  induction r with
  | nil => rfl
  | cap _ _ ih => simp [ih]
  | copy _ _ _ ih => simp [ih]

theorem rel_cov {force : Bool} {ts : List Omt} {as : List Arr} {cs : List Nat}
    (r : Rel force ts as cs) :
    (∀ b ∈ cs, (⟨⟨.heap b, 0⟩, .own b⟩ : Arr) ∈ as) ∧
      ∀ t ∈ ts, (t.owning && !force) = true → (⟨t.data, .capsule t.data⟩ : Arr) ∈ as := by
  induction r with
  | nil => simp
  | cap ht _ ih =>
    refine ⟨fun b hb => by simp [ih.1 b hb], fun t h1 h2 => ?_⟩
    rcases List.mem_cons.mp h1 with rfl | h1
    · simp
    · simp [ih.2 t h1 h2]
  | copy b ht _ ih =>
    refine ⟨fun c hc => ?_, fun t h1 h2 => ?_⟩
    · rcases List.mem_cons.mp hc with rfl | hc
      · simp
      · simp [ih.1 c hc]
    · rcases List.mem_cons.mp h1 with rfl | h1
      · rw [ht] at h2; cases h2
      · simp [ih.2 t h1 h2]

theorem rel_shared {force : Bool} {ts : List Omt} {as : List Arr} {cs R : List Nat}
    (r : Rel force ts as cs) (hn : cs.Nodup) (hdis : ∀ b ∈ cs, b ∉ R)
    (hR : ∀ t ∈ ts, (t.owning && !force) = true → ∃ b ∈ R, t.data.place = .heap b)
    (hsame : ∀ t ∈ ts, ∀ t' ∈ ts, (t.owning && !force) = true → (t'.owning && !force) = true →
      t.data.place = t'.data.place → t.data = t'.data) :
    as.Pairwise fun a a' =>
      baseBlock a = baseBlock a' → ∃ key, a.base = .capsule key ∧ a'.base = .capsule key := by
  induction r with
  | nil => exact List.Pairwise.nil
  | @cap t ts as cs ht r ih =>
    refine List.pairwise_cons.mpr ⟨?_, ih hn hdis (fun x hx => hR x (by simp [hx]))
      (fun x hx y hy => hsame x (by simp [hx]) y (by simp [hy]))⟩
    intro a' ha' e
    obtain ⟨b, hb, hp⟩ := hR t (by simp) ht
    rcases rel_mem r a' ha' with ⟨t', h1, h2, rfl⟩ | ⟨c, h1, rfl⟩
    · obtain ⟨b', hb', hp'⟩ := hR t' (by simp [h1]) h2
      simp only [baseBlock, hp, hp', Option.some.injEq] at e
      have := hsame t (by simp) t' (by simp [h1]) ht h2 (by rw [hp, hp', e])
      exact ⟨t.data, rfl, by rw [this]⟩
    · simp only [baseBlock, hp, Option.some.injEq] at e
      subst e
      exact (hdis b h1 hb).elim
  | @copy t ts as cs b ht r ih =>
    obtain ⟨hb, hn⟩ := List.nodup_cons.mp hn
    refine List.pairwise_cons.mpr ⟨?_, ih hn (fun x hx => hdis x (by simp [hx]))
      (fun x hx => hR x (by simp [hx]))
      (fun x hx y hy => hsame x (by simp [hx]) y (by simp [hy]))⟩
    intro a' ha' e
    rcases rel_mem r a' ha' with ⟨t', h1, h2, rfl⟩ | ⟨c, h1, rfl⟩
    · obtain ⟨b', hb', hp'⟩ := hR t' (by simp [h1]) h2
      simp only [baseBlock, hp', Option.some.injEq] at e
      subst e
      exact (hdis b (by simp) hb').elim
    · simp only [baseBlock, Option.some.injEq] at e
      subst e
      exact (hb h1).elim

theorem map_disown_blocks (force : Bool) (ts : List Omt) :
    (force = false → (ts.map (disown force)).flatMap ownBlocks = []) ∧
      (force = true → ts.map (disown force) = ts) ∧
      (ts.map (disown force)).map (·.meta_) = ts.map (·.meta_) := by
  refine ⟨fun hf => ?_, fun hf => ?_, ?_⟩
  · subst hf
    induction ts with
    | nil => rfl
    | cons t ts ih =>
      rw [List.map_cons, List.flatMap_cons, ih]
      cases ho : t.owning <;> simp [disown, ownBlocks, ho]
  · subst hf
    induction ts with
    | nil => rfl
    | cons t ts ih => rw [List.map_cons, ih]; simp [disown]
  · rw [List.map_map]
    apply List.map_congr_left
    intro t _
    simp only [Function.comp_apply, disown]
    split <;> rfl

/-- The run in Python ends with the invariant. -/
theorem pyRun_ok {h0 : Heap} (p : Prog) (choice : Nat → Bool) (force : Bool) (ins : List PyIn)
    (hok : h0.Ok) (hp : p.Ok choice)
    (hi : ∀ i ∈ ins, i.contiguous = true ∧ i.kind ≠ .unsupported ∧
      (i.kind = .string → i.writeable = true))
    (hsame : ∀ s ∈ p.outputs, ∀ s' ∈ p.outputs, ∀ k, newBuffer choice s = some k →
      newBuffer choice s' = some k → ∀ args base,
        eval args base choice s = eval args base choice s')
    (hforce : force = true → (p.outputs.filterMap (newBuffer choice)).Nodup) :
    ∃ h st, pyRun p choice force h0 ins = some (h, .ok st) ∧ st.heap = h ∧
      st.arrays.length = p.outputs.length ∧ PyInv h0 st := by
  obtain ⟨h1, omts, e1, o1, g1⟩ := addInputs_ok ins hi (Owns.refl hok)
  rw [List.append_nil] at o1
  have o2 := o1.alloc
  obtain ⟨h3, ts, l, e3, o3, m3⟩ := entry_ok p choice (argOf omts) hp o2
  obtain ⟨w1, w2⟩ := ownBlocks_of ts _ _ _ _ m3
  obtain ⟨h4, caps, as, cs, e4, o4, r, c1, -, c3⟩ := outLoop_ok force [] ts o3 (by simp [CapsOk])
  obtain ⟨d1, d2, d3⟩ := map_disown_blocks force ts
  -- facts on the tensors of the outputs
  have htr : ∀ t ∈ ts, ∃ s ∈ p.outputs, t.data = eval (argOf omts) h1.alloc.2.next choice s ∧
      t.owning = (newBuffer choice s).isSome := by
    intro t ht
    have : (t.data, t.owning) ∈ ts.map (fun t => (t.data, t.owning)) :=
      List.mem_map.mpr ⟨t, ht, rfl⟩
    rw [m3] at this
    obtain ⟨s, hs, e⟩ := List.mem_map.mp this
    simp only [Prod.mk.injEq] at e
    exact ⟨s, hs, e.1.symm, e.2.symm⟩
  have hts : ∀ s ∈ p.outputs, ∃ t ∈ ts, t.data = eval (argOf omts) h1.alloc.2.next choice s ∧
      t.owning = (newBuffer choice s).isSome := by
    intro s hs
    have : (eval (argOf omts) h1.alloc.2.next choice s, (newBuffer choice s).isSome) ∈
        ts.map (fun t => (t.data, t.owning)) := by
      rw [m3]; exact List.mem_map.mpr ⟨s, hs, rfl⟩
    obtain ⟨t, ht, e⟩ := List.mem_map.mp this
    simp only [Prod.mk.injEq] at e
    exact ⟨t, ht, e.1, e.2⟩
  have hmemR := fun b => mem_returned p choice h1.alloc.2.next b hp.below
  have hR : ∀ t ∈ ts, (t.owning && !force) = true →
      ∃ b ∈ returned p choice h1.alloc.2.next, t.data.place = .heap b := by
    intro t ht ho
    rw [Bool.and_eq_true] at ho
    obtain ⟨s, hs, e1, e2⟩ := htr t ht
    rw [ho.1] at e2
    obtain ⟨k, hk⟩ := Option.isSome_iff_exists.mp e2.symm
    refine ⟨h1.alloc.2.next + k, (hmemR _).mpr ⟨k, List.mem_filterMap.mpr ⟨s, hs, hk⟩, rfl⟩, ?_⟩
    rw [e1]
    exact eval_new _ _ _ s hk
  have hsame' : ∀ t ∈ ts, ∀ t' ∈ ts, (t.owning && !force) = true →
      (t'.owning && !force) = true → t.data.place = t'.data.place → t.data = t'.data := by
    intro t ht t' ht' ho ho' e
    rw [Bool.and_eq_true] at ho ho'
    obtain ⟨s, hs, e1, e2⟩ := htr t ht
    obtain ⟨s', hs', e1', e2'⟩ := htr t' ht'
    rw [ho.1] at e2
    rw [ho'.1] at e2'
    obtain ⟨k, hk⟩ := Option.isSome_iff_exists.mp e2.symm
    obtain ⟨k', hk'⟩ := Option.isSome_iff_exists.mp e2'.symm
    rw [e1, e1', eval_new _ _ _ s hk, eval_new _ _ _ s' hk'] at e
    have hkk : k = k' := by
      have := Place.heap.inj e
      omega
    subst hkk
    rw [e1, e1']
    exact hsame s hs s' hs' k hk hk' _ _
  have o4n := o4.nodup
  rw [List.nodup_append] at o4n
  obtain ⟨hcs, hrest, hdisj⟩ := o4n
  -- what is left after the lists are destroyed
  have hfin : ∃ h5, omTensorListDestroy h4 l (ts.map (disown force)) = some h5 ∧
      Owns h0 h5 (omts.flatMap blocks ++ (h1.alloc.1 ::
        ((if force then [] else returned p choice h1.alloc.2.next) ++ cs))) := by
    have hgood : ∀ t ∈ ts.map (disown force), GoodOwn t := by
      intro t ht
      obtain ⟨t0, ht0, rfl⟩ := List.mem_map.mp ht
      unfold disown
      split
      · intro h; cases h
      · exact w2 t0 ht0
    have hperm : (cs ++ (l :: (ts.map (·.meta_) ++ (returned p choice h1.alloc.2.next ++
        (h1.alloc.1 :: omts.flatMap blocks))))).Perm
        ((ts.map (disown force)).flatMap blocks ++ (l :: (omts.flatMap blocks ++ (h1.alloc.1 ::
          ((if force then [] else returned p choice h1.alloc.2.next) ++ cs))))) := by
      have pb := blocks_perm (ts.map (disown force))
      rw [d3] at pb
      refine List.Perm.trans ?_ (List.Perm.append_right _ pb.symm)
      cases force with
      | false =>
        rw [d1 rfl]
        simp only [List.nil_append, Bool.false_eq_true, if_false]
        refine List.perm_middle.trans ?_
        refine List.Perm.trans ?_ List.perm_middle.symm
        refine List.Perm.cons _ ?_
        refine List.perm_append_comm.trans ?_
        rw [List.append_assoc]
        refine List.Perm.append_left _ ?_
        rw [List.append_assoc]
        refine List.perm_append_comm.trans ?_
        simp only [List.cons_append]
        refine List.Perm.trans ?_ List.perm_middle.symm
        refine List.Perm.cons _ ?_
        rw [List.append_assoc]
        refine List.Perm.append_left _ ?_
        exact List.perm_append_comm
      | true =>
        rw [d2 rfl, w1]
        simp only [List.nil_append, if_true]
        have pr := returned_perm p choice h1.alloc.2.next hp (hforce rfl)
        rw [List.perm_iff_count]
        intro a
        have := List.perm_iff_count.mp pr a
        simp only [List.count_append, List.count_cons]
        omega
    have o5 := o4.perm hperm
    obtain ⟨h5, e5, o6⟩ := destroyAll_ok hgood o5
    obtain ⟨h6, e6, o7⟩ := o6.free
    exact ⟨h6, by simp [omTensorListDestroy, e5, e6], o7⟩
  obtain ⟨h5, e5, o5⟩ := hfin
  obtain ⟨h6, e6, o6⟩ := destroyAll_ok g1 o5
  obtain ⟨h7, e7, o7⟩ := o6.free
  refine ⟨h7, ⟨h7, caps, as⟩, ?_, rfl, ?_, ?_⟩
  · unfold pyRun
    rw [e1]
    simp only
    rw [e3]
    simp only [e4]
    rw [e5]
    simp only [Option.bind_some, omTensorListDestroy, e6, e7, Option.map_some]
  · have := congrArg List.length m3
    rw [List.length_map, List.length_map] at this
    rw [rel_length r, this]
  · have hin : ∀ b, b ∈ (if force then [] else returned p choice h1.alloc.2.next) ++ cs ↔
        ∃ a ∈ as, baseBlock a = some b := by
      intro b
      constructor
      · intro hb
        rcases List.mem_append.mp hb with hb | hb
        · cases hf : force with
          | true => rw [hf] at hb; simp at hb
          | false =>
            rw [hf] at hb
            simp only [Bool.false_eq_true, if_false] at hb
            obtain ⟨k, hk, e⟩ := (hmemR b).mp hb
            obtain ⟨s, hs, hsk⟩ := List.mem_filterMap.mp hk
            obtain ⟨t, ht, e1, e2⟩ := hts s hs
            rw [hsk] at e2
            refine ⟨_, (rel_cov r).2 t ht (by simp [e2, hf]), ?_⟩
            simp only [baseBlock]
            rw [e1, eval_new _ _ _ s hsk]
            simp [e]
        · exact ⟨_, (rel_cov r).1 b hb, rfl⟩
      · rintro ⟨a, ha, e⟩
        rcases rel_mem r a ha with ⟨t, h1, h2, rfl⟩ | ⟨c, h1, rfl⟩
        · obtain ⟨b', hb', hp'⟩ := hR t h1 h2
          simp only [baseBlock, hp', Option.some.injEq] at e
          subst e
          rw [Bool.and_eq_true] at h2
          have hf : force = false := by simpa using h2.2
          simp [hf, hb']
        · simp only [baseBlock, Option.some.injEq] at e
          subst e
          exact List.mem_append_right _ h1
    refine ⟨fun b => ?_, fun a ha => ?_, fun a ha key hk => ?_, ?_⟩
    · rw [o7.live b]
      congr 1
      rw [Bool.eq_iff_iff, List.contains_iff_mem, hin b, List.any_eq_true]
      simp
    · rcases rel_mem r a ha with ⟨t, h1, h2, rfl⟩ | ⟨c, h1, rfl⟩
      · obtain ⟨b', hb', hp'⟩ := hR t h1 h2
        refine ⟨b', by simp [baseBlock, hp'], ?_, hp'⟩
        rw [Bool.and_eq_true] at h2
        have hf : force = false := by simpa using h2.2
        exact o7.fresh b' (by simp [hf, hb'])
      · exact ⟨c, rfl, o7.fresh c (List.mem_append_right _ h1), rfl⟩
    · exact find_mem c1 (c3 a ha key hk)
    · refine rel_shared r hcs (R := returned p choice h1.alloc.2.next) ?_ hR hsame'
      intro b hb hbR
      refine hdisj b hb b ?_ rfl
      simp [hbR]

end Verif.Ownership
