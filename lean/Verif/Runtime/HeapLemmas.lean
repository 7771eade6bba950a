import Verif.Runtime.HeapModel

namespace Verif.Runtime.Heap

/-- Invariant: owned allocations are live and have one owner; handles are fresh. -/
structure Inv (s : State) : Prop where
  live : ∀ h p, OwnedBy s h p → s.bufs p = some .live
  uniq : ∀ h h' p, OwnedBy s h p → OwnedBy s h' p → h = h'
  freshT : ∀ h, s.nextTen ≤ h → s.tens h = none
  freshB : ∀ p, s.nextBuf ≤ p → s.bufs p = none

theorem inv_init : Inv State.init := by
  constructor <;> simp [State.init, OwnedBy]

theorem update_apply' {α : Type} (f : Nat → α) (a : Nat) (v : α) (x : Nat) :
    Function.update f a v x = if x = a then v else f x := by
  by_cases h : x = a
  · subst h; simp
  · simp [h]

open Classical in
theorem freeBuf_ok {s : State} {h : Nat} {t : TRec} (inv : Inv s) (ht : s.tens h = some t) :
    ∃ s1, releaseOld s t = .ok s1 ∧ s1.tens = s.tens ∧
      s1.lists = s.lists ∧ s1.nextBuf = s.nextBuf ∧ s1.nextTen = s.nextTen ∧
      s1.nextList = s.nextList ∧
      (∀ p, s1.bufs p = if OwnedBy s h p then some .freed else s.bufs p) := by
  rcases t with ⟨ptr, owning⟩
  cases owning with
  | false =>
    refine ⟨s, by simp [releaseOld], rfl, rfl, rfl, rfl, rfl, ?_⟩
    intro p; simp [OwnedBy, ht]
  | true =>
    cases ptr with
    | none =>
      refine ⟨s, by simp [releaseOld, freeBuf], rfl, rfl, rfl, rfl, rfl, ?_⟩
      intro p; simp [OwnedBy, ht]
    | some q =>
      have hl := inv.live h q ht
      refine ⟨{ s with bufs := Function.update s.bufs q (some .freed) }, by simp [releaseOld, freeBuf, hl],
        rfl, rfl, rfl, rfl, rfl, ?_⟩
      intro p
      simp only [update_apply', OwnedBy, ht, Option.some.injEq, TRec.mk.injEq, and_true]
      by_cases hp : p = q
      · simp [hp]
      · simp [hp, Ne.symm hp]

open Classical in
/-- What destroying one live tensor does. -/
theorem destroy_ok {s : State} {h : Nat} {t : TRec} (inv : Inv s) (ht : s.tens h = some t) :
    ∃ s', destroyTensor s (some h) = .ok s' ∧ Inv s' ∧
      (∀ k, s'.tens k = if k = h then none else s.tens k) ∧ s'.lists = s.lists ∧
      (∀ p, s'.bufs p = if OwnedBy s h p then some .freed else s.bufs p) := by
  obtain ⟨s1, h1, h2, h3, h4, h5, h6, h7⟩ := freeBuf_ok inv ht
  refine ⟨{ s1 with tens := Function.update s1.tens h none }, ?_, ?_, ?_, ?_, ?_⟩
  · simp only [destroyTensor, ht, h1]; rfl
  · have key : ∀ k p, OwnedBy { s1 with tens := Function.update s1.tens h none } k p →
        k ≠ h ∧ OwnedBy s k p := by
      intro k p hk
      simp only [OwnedBy, update_apply', h2] at hk
      by_cases hkh : k = h
      · simp [hkh] at hk
      · simp only [hkh, if_false] at hk; exact ⟨hkh, hk⟩
    constructor
    · intro k p hk
      obtain ⟨hne, hk'⟩ := key k p hk
      show s1.bufs p = _
      rw [h7, if_neg, inv.live k p hk']
      intro ho; exact hne (inv.uniq k h p hk' ho)
    · intro k k' p hk hk'
      exact inv.uniq k k' p (key k p hk).2 (key k' p hk').2
    · intro k hk
      simp only [h5] at hk
      simp only [update_apply', h2]
      split
      · rfl
      · exact inv.freshT k hk
    · intro p hp
      simp only [h4] at hp
      show s1.bufs p = none
      have := inv.freshB p hp
      rw [h7, if_neg, this]
      intro ho
      rw [inv.live h p ho] at this; cases this
  · intro k; simp [update_apply', h2]
  · exact h3
  · exact h7

open Classical in
theorem destroyAll_ok {s : State} (inv : Inv s) (hs : List (Option Nat))
    (nd : (hs.filterMap id).Nodup) (lv : ∀ k, some k ∈ hs → ∃ t, s.tens k = some t) :
    ∃ s', destroyAll s hs = .ok s' ∧ Inv s' ∧ s'.lists = s.lists ∧
      (∀ k, s'.tens k = if some k ∈ hs then none else s.tens k) ∧
      (∀ p, s'.bufs p = if ∃ h, some h ∈ hs ∧ OwnedBy s h p then some .freed else s.bufs p) := by
  induction hs generalizing s with
  | nil => exact ⟨s, rfl, inv, rfl, by simp, by simp⟩
  | cons o hs ih =>
    cases o with
    | none =>
      obtain ⟨s', h1, h2, h3, h4, h5⟩ := ih inv (by simpa using nd)
        (fun k hk => lv k (by simp [hk]))
      refine ⟨s', ?_, h2, h3, ?_, ?_⟩
      · simp only [destroyAll, destroyTensor]; exact h1
      · intro k; rw [h4]; simp
      · intro p; rw [h5]; simp
    | some h =>
      obtain ⟨t, ht⟩ := lv h (by simp)
      obtain ⟨s1, e1, inv1, t1, l1, b1⟩ := destroy_ok inv ht
      simp only [List.filterMap_cons, id, List.nodup_cons, List.mem_filterMap] at nd
      have hnot : some h ∉ hs := fun hm => nd.1 ⟨some h, hm, rfl⟩
      obtain ⟨s', h1, h2, h3, h4, h5⟩ := ih inv1 nd.2 (by
        intro k hk
        obtain ⟨t', ht'⟩ := lv k (by simp [hk])
        have : k ≠ h := by rintro rfl; exact hnot hk
        exact ⟨t', by rw [t1, if_neg this, ht']⟩)
      refine ⟨s', ?_, h2, by rw [h3, l1], ?_, ?_⟩
      · simp only [destroyAll, e1]; exact h1
      · intro k
        rw [h4, t1]
        by_cases hk : k = h
        · subst hk; simp
        · simp [hk]
      · intro p
        rw [h5, b1]
        have e : ∀ k, (some k ∈ hs ∧ OwnedBy s1 k p) ↔ (some k ∈ hs ∧ OwnedBy s k p) := by
          intro k
          constructor <;> rintro ⟨hm, ho⟩ <;> refine ⟨hm, ?_⟩ <;>
          · have : k ≠ h := by rintro rfl; exact hnot hm
            simp only [OwnedBy, t1, if_neg this] at ho ⊢
            exact ho
        simp only [e, List.mem_cons, Option.some.injEq]
        by_cases ho : OwnedBy s h p
        · have : ∃ k, (k = h ∨ some k ∈ hs) ∧ OwnedBy s k p := ⟨h, Or.inl rfl, ho⟩
          simp [ho, this]
        · have : (∃ k, (k = h ∨ some k ∈ hs) ∧ OwnedBy s k p) ↔
              ∃ k, some k ∈ hs ∧ OwnedBy s k p := by
            constructor
            · rintro ⟨k, rfl | hk, hk'⟩
              · exact absurd hk' ho
              · exact ⟨k, hk, hk'⟩
            · rintro ⟨k, hk, hk'⟩; exact ⟨k, Or.inr hk, hk'⟩
          simp [ho, this]

theorem step_ok {s : State} {op : Op} (inv : Inv s) (leg : Legal s op) :
    ∃ s', step s op = .ok s' ∧ Inv s' := by
  cases op with
  | malloc =>
    refine ⟨_, rfl, ?_, ?_, ?_, ?_⟩
    · intro h p ho
      have hl := inv.live h p ho
      have : p ≠ s.nextBuf := by
        rintro rfl; rw [inv.freshB _ (Nat.le_refl _)] at hl; cases hl
      simp [update_apply', this, hl]
    · exact inv.uniq
    · exact inv.freshT
    · intro p hp
      have hp : s.nextBuf + 1 ≤ p := hp
      have h1 : p ≠ s.nextBuf := by omega
      simp [update_apply', h1, inv.freshB p (by omega)]
  | userFree p =>
    obtain ⟨hl, hno⟩ := leg
    refine ⟨{ s with bufs := Function.update s.bufs p (some .freed) },
      by simp [step, freeBuf, hl], ?_, inv.uniq, inv.freshT, ?_⟩
    · intro h q ho
      have : q ≠ p := by rintro rfl; exact hno h ho
      simp [update_apply', this, inv.live h q ho]
    · intro q hq
      have : q ≠ p := by
        rintro rfl; rw [inv.freshB _ hq] at hl; cases hl
      simp [update_apply', this, inv.freshB q hq]
  | create p owning =>
    have key : ∀ k q, OwnedBy { s with tens := Function.update s.tens s.nextTen (some ⟨p, owning⟩), nextTen := s.nextTen + 1 } k q →
        (k = s.nextTen ∧ p = some q ∧ owning = true) ∨ (k ≠ s.nextTen ∧ OwnedBy s k q) := by
      intro k q hk
      simp only [OwnedBy, update_apply'] at hk
      by_cases hkh : k = s.nextTen
      · simp only [hkh, if_true, Option.some.injEq, TRec.mk.injEq] at hk; exact Or.inl ⟨hkh, hk⟩
      · simp only [hkh, if_false] at hk; exact Or.inr ⟨hkh, hk⟩
    refine ⟨_, rfl, ?_, ?_, ?_, inv.freshB⟩
    · intro k q hk
      rcases key k q hk with ⟨_, hp, ho⟩ | ⟨_, ho⟩
      · exact (leg ho q hp).1
      · exact inv.live k q ho
    · intro k k' q hk hk'
      rcases key k q hk with ⟨e, hp, ho⟩ | ⟨e, ho⟩ <;>
        rcases key k' q hk' with ⟨e', hp', ho'⟩ | ⟨e', ho'⟩
      · rw [e, e']
      · exact absurd ho' ((leg ho q hp).2 k')
      · exact absurd ho ((leg ho' q hp').2 k)
      · exact inv.uniq k k' q ho ho'
    · intro k hk
      have hk : s.nextTen + 1 ≤ k := hk
      have : k ≠ s.nextTen := by omega
      simp [update_apply', this, inv.freshT k (by omega)]
  | createEmpty =>
    have key : ∀ k q, OwnedBy { s with
          bufs := Function.update s.bufs s.nextBuf (some .live),
          nextBuf := s.nextBuf + 1, tens := Function.update s.tens s.nextTen (some ⟨some s.nextBuf, true⟩), nextTen := s.nextTen + 1 } k q →
        (k = s.nextTen ∧ q = s.nextBuf) ∨ (k ≠ s.nextTen ∧ OwnedBy s k q ∧ q ≠ s.nextBuf) := by
      intro k q hk
      simp only [OwnedBy, update_apply'] at hk
      by_cases hkh : k = s.nextTen
      · simp only [hkh, if_true, Option.some.injEq, TRec.mk.injEq, and_true] at hk
        exact Or.inl ⟨hkh, hk.symm⟩
      · simp only [hkh, if_false] at hk
        refine Or.inr ⟨hkh, hk, ?_⟩
        rintro rfl
        have := inv.live k _ hk
        rw [inv.freshB _ (Nat.le_refl _)] at this; cases this
    refine ⟨_, rfl, ?_, ?_, ?_, ?_⟩
    · intro k q hk
      rcases key k q hk with ⟨_, rfl⟩ | ⟨_, ho, hne⟩
      · simp
      · simp [update_apply', hne, inv.live k q ho]
    · intro k k' q hk hk'
      rcases key k q hk with ⟨e, hq⟩ | ⟨e, ho, hne⟩ <;>
        rcases key k' q hk' with ⟨e', hq'⟩ | ⟨e', ho', hne'⟩
      · rw [e, e']
      · exact absurd hq hne'
      · exact absurd hq' hne
      · exact inv.uniq k k' q ho ho'
    · intro k hk
      have hk : s.nextTen + 1 ≤ k := hk
      have : k ≠ s.nextTen := by omega
      simp [update_apply', this, inv.freshT k (by omega)]
    · intro p hp
      have hp : s.nextBuf + 1 ≤ p := hp
      have h1 : p ≠ s.nextBuf := by omega
      simp [update_apply', h1, inv.freshB p (by omega)]
  | setOwning h b =>
    obtain ⟨t, ht, hb⟩ := leg
    have key : ∀ k q, OwnedBy { s with tens := Function.update s.tens h (some { t with owning := b }) } k q →
        (k = h ∧ t.ptr = some q ∧ b = true) ∨ (k ≠ h ∧ OwnedBy s k q) := by
      intro k q hk
      simp only [OwnedBy, update_apply'] at hk
      by_cases hkh : k = h
      · simp only [hkh, if_true, Option.some.injEq, TRec.mk.injEq] at hk; exact Or.inl ⟨hkh, hk⟩
      · simp only [hkh, if_false] at hk; exact Or.inr ⟨hkh, hk⟩
    refine ⟨{ s with tens := Function.update s.tens h (some { t with owning := b }) },
      by simp only [step, ht], ?_, ?_, ?_, inv.freshB⟩
    · intro k q hk
      rcases key k q hk with ⟨_, hp, ho⟩ | ⟨_, ho⟩
      · exact (hb ho q hp).1
      · exact inv.live k q ho
    · intro k k' q hk hk'
      rcases key k q hk with ⟨e, hp, ho⟩ | ⟨e, ho⟩ <;>
        rcases key k' q hk' with ⟨e', hp', ho'⟩ | ⟨e', ho'⟩
      · rw [e, e']
      · exact absurd ((hb ho q hp).2 k' ho') e'
      · exact absurd ((hb ho' q hp').2 k ho) e
      · exact inv.uniq k k' q ho ho'
    · intro k hk
      have hk : s.nextTen ≤ k := hk
      have : k ≠ h := by rintro rfl; rw [inv.freshT _ hk] at ht; cases ht
      simp [update_apply', this, inv.freshT k hk]
  | setDataPtr h owning p =>
    obtain ⟨⟨t, ht⟩, hb⟩ := leg
    obtain ⟨s1, h1, h2, h3, h4, h5, h6, h7⟩ := freeBuf_ok inv ht
    have key : ∀ k q, OwnedBy { s1 with tens := Function.update s1.tens h (some ⟨p, owning⟩) } k q →
        (k = h ∧ p = some q ∧ owning = true) ∨ (k ≠ h ∧ OwnedBy s k q) := by
      intro k q hk
      simp only [OwnedBy, update_apply', h2] at hk
      by_cases hkh : k = h
      · simp only [hkh, if_true, Option.some.injEq, TRec.mk.injEq] at hk; exact Or.inl ⟨hkh, hk⟩
      · simp only [hkh, if_false] at hk; exact Or.inr ⟨hkh, hk⟩
    refine ⟨{ s1 with tens := Function.update s1.tens h (some ⟨p, owning⟩) },
      by simp only [step, ht, h1]; rfl, ?_, ?_, ?_, ?_⟩
    · intro k q hk
      show s1.bufs q = _
      rw [h7]
      rcases key k q hk with ⟨_, hp, ho⟩ | ⟨hne, ho⟩
      · rw [if_neg ((hb ho q hp).2 h)]; exact (hb ho q hp).1
      · rw [if_neg (fun hh => hne (inv.uniq k h q ho hh))]; exact inv.live k q ho
    · intro k k' q hk hk'
      rcases key k q hk with ⟨e, hp, ho⟩ | ⟨e, ho⟩ <;>
        rcases key k' q hk' with ⟨e', hp', ho'⟩ | ⟨e', ho'⟩
      · rw [e, e']
      · exact absurd ho' ((hb ho q hp).2 k')
      · exact absurd ho ((hb ho' q hp').2 k)
      · exact inv.uniq k k' q ho ho'
    · intro k hk
      simp only [h5] at hk
      have : k ≠ h := by rintro rfl; rw [inv.freshT _ hk] at ht; cases ht
      simp [update_apply', this, h2, inv.freshT k hk]
    · intro q hq
      simp only [h4] at hq
      show s1.bufs q = none
      have := inv.freshB q hq
      rw [h7, if_neg, this]
      intro ho; rw [inv.live h q ho] at this; cases this
  | destroy h =>
    cases h with
    | none => exact ⟨s, rfl, inv⟩
    | some h =>
      obtain ⟨t, ht⟩ := leg h rfl
      obtain ⟨s', h1, h2, _⟩ := destroy_ok inv ht
      exact ⟨s', h1, h2⟩
  | listCreate hs => exact ⟨_, rfl, inv.live, inv.uniq, inv.freshT, inv.freshB⟩
  | listDestroy l =>
    obtain ⟨hs, hl, nd, lv⟩ := leg
    obtain ⟨s', h1, h2, _⟩ := destroyAll_ok inv hs nd lv
    exact ⟨{ s' with lists := Function.update s'.lists l none },
      by simp only [step, hl, h1]; rfl, h2.live, h2.uniq, h2.freshT, h2.freshB⟩
  | listDestroyShallow l =>
    obtain ⟨hs, hl⟩ := leg
    exact ⟨{ s with lists := Function.update s.lists l none }, by simp only [step, hl], inv.live, inv.uniq, inv.freshT, inv.freshB⟩

theorem run_ok {s : State} (inv : Inv s) (ops : List Op) (leg : LegalRun s ops) :
    ∃ s', run s ops = .ok s' ∧ Inv s' := by
  induction ops generalizing s with
  | nil => exact ⟨s, rfl, inv⟩
  | cons op ops ih =>
    obtain ⟨s1, h1, inv1⟩ := step_ok inv leg.1
    obtain ⟨s2, h2, inv2⟩ := ih inv1 (leg.2 s1 h1)
    exact ⟨s2, by simp only [run, h1]; exact h2, inv2⟩

theorem freeBuf_bufs {s s' : State} {o : Option Nat} (h : freeBuf s o = .ok s') (p : Nat)
    (hp : o ≠ some p) : s'.bufs p = s.bufs p := by
  cases o with
  | none => simp only [freeBuf, Except.ok.injEq] at h; rw [h]
  | some q =>
    simp only [freeBuf] at h
    split at h
    · simp only [Except.ok.injEq] at h
      subst h
      have : p ≠ q := by rintro rfl; exact hp rfl
      simp [update_apply', this]
    · cases h

/-- A call other than the client's own `free` changes the status of an existing allocation
only when a live tensor owns it. -/
theorem step_frees_only_owned {s s' : State} {op : Op} (inv : Inv s) (leg : Legal s op)
    (hs : step s op = .ok s') (hop : ∀ p, op ≠ .userFree p) (p : Nat)
    (hno : ∀ h, ¬ OwnedBy s h p) (hal : s.bufs p ≠ none) : s'.bufs p = s.bufs p := by
  have hnp : p ≠ s.nextBuf := by
    rintro rfl; exact hal (inv.freshB _ (Nat.le_refl _))
  cases op with
  | malloc => simp only [step, Except.ok.injEq] at hs; subst hs; simp [update_apply', hnp]
  | userFree q => exact absurd rfl (hop q)
  | create q o => simp only [step, Except.ok.injEq] at hs; subst hs; rfl
  | createEmpty => simp only [step, Except.ok.injEq] at hs; subst hs; simp [update_apply', hnp]
  | setOwning h b =>
    obtain ⟨t, ht, _⟩ := leg
    simp only [step, ht, Except.ok.injEq] at hs; subst hs; rfl
  | setDataPtr h o q =>
    obtain ⟨⟨t, ht⟩, _⟩ := leg
    obtain ⟨s1, h1, -, -, -, -, -, h7⟩ := freeBuf_ok inv ht
    simp only [step, ht, h1, Except.bind, Except.ok.injEq] at hs
    subst hs
    show s1.bufs p = _
    rw [h7, if_neg (hno h)]
  | destroy h =>
    cases h with
    | none => simp only [step, destroyTensor, Except.ok.injEq] at hs; rw [hs]
    | some h =>
      obtain ⟨t, ht⟩ := leg h rfl
      obtain ⟨s1, h1, -, -, -, h7⟩ := destroy_ok inv ht
      simp only [step, h1, Except.ok.injEq] at hs
      subst hs
      rw [h7, if_neg (hno h)]
  | listCreate hs' => simp only [step, Except.ok.injEq] at hs; subst hs; rfl
  | listDestroy l =>
    obtain ⟨hs', hl, nd, lv⟩ := leg
    obtain ⟨s1, h1, -, -, -, h7⟩ := destroyAll_ok inv hs' nd lv
    simp only [step, hl, h1, Except.bind, Except.ok.injEq] at hs
    subst hs
    show s1.bufs p = _
    rw [h7, if_neg]
    rintro ⟨h, _, ho⟩; exact hno h ho
  | listDestroyShallow l =>
    obtain ⟨hs', hl⟩ := leg
    simp only [step, hl, Except.ok.injEq] at hs; subst hs; rfl

/-- Ownership ends only by an explicit hand-back or by freeing the allocation. -/
theorem step_no_leak {s s' : State} {op : Op} (inv : Inv s) (leg : Legal s op)
    (hs : step s op = .ok s') (h p : Nat) (ho : OwnedBy s h p) :
    OwnedBy s' h p ∨ op = .setOwning h false ∨ s'.bufs p = some .freed := by
  have hnt : h ≠ s.nextTen := by
    rintro rfl
    have := inv.freshT _ (Nat.le_refl _)
    rw [OwnedBy, this] at ho; cases ho
  cases op with
  | malloc => simp only [step, Except.ok.injEq] at hs; subst hs; exact Or.inl ho
  | userFree q =>
    simp only [step, freeBuf, leg.1, Except.ok.injEq] at hs; subst hs; exact Or.inl ho
  | create q o =>
    simp only [step, Except.ok.injEq] at hs; subst hs
    left; simp only [OwnedBy, update_apply', hnt, if_false]; exact ho
  | createEmpty =>
    simp only [step, Except.ok.injEq] at hs; subst hs
    left; simp only [OwnedBy, update_apply', hnt, if_false]; exact ho
  | setOwning k b =>
    obtain ⟨t, ht, _⟩ := leg
    simp only [step, ht, Except.ok.injEq] at hs; subst hs
    by_cases hk : h = k
    · subst hk
      cases b with
      | false => exact Or.inr (Or.inl rfl)
      | true =>
        rw [OwnedBy, ht] at ho
        simp only [Option.some.injEq] at ho
        left; simp [OwnedBy, ho]
    · left; simp only [OwnedBy, update_apply', hk, if_false]; exact ho
  | setDataPtr k o q =>
    obtain ⟨⟨t, ht⟩, _⟩ := leg
    obtain ⟨s1, h1, h2, -, -, -, -, h7⟩ := freeBuf_ok inv ht
    simp only [step, ht, h1, Except.bind, Except.ok.injEq] at hs
    subst hs
    by_cases hk : h = k
    · subst hk
      right; right
      show s1.bufs p = _
      rw [h7, if_pos ho]
    · left; simp only [OwnedBy, update_apply', hk, if_false, h2]; exact ho
  | destroy k =>
    cases k with
    | none =>
      simp only [step, destroyTensor, Except.ok.injEq] at hs
      subst hs; exact Or.inl ho
    | some k =>
      obtain ⟨t, ht⟩ := leg k rfl
      obtain ⟨s1, h1, -, h3, -, h7⟩ := destroy_ok inv ht
      simp only [step, h1, Except.ok.injEq] at hs
      subst hs
      by_cases hk : h = k
      · subst hk; right; right; rw [h7, if_pos ho]
      · left; rw [OwnedBy, h3, if_neg hk]; exact ho
  | listCreate hs' => simp only [step, Except.ok.injEq] at hs; subst hs; exact Or.inl ho
  | listDestroy l =>
    obtain ⟨hs', hl, nd, lv⟩ := leg
    obtain ⟨s1, h1, -, -, h4, h7⟩ := destroyAll_ok inv hs' nd lv
    simp only [step, hl, h1, Except.bind, Except.ok.injEq] at hs
    subst hs
    by_cases hk : some h ∈ hs'
    · right; right
      show s1.bufs p = _
      rw [h7, if_pos ⟨h, hk, ho⟩]
    · left
      show s1.tens h = _
      rw [h4, if_neg hk]; exact ho
  | listDestroyShallow l =>
    obtain ⟨hs', hl⟩ := leg
    simp only [step, hl, Except.ok.injEq] at hs; subst hs; exact Or.inl ho

theorem run_append {s : State} (a b : List Op) :
    run s (a ++ b) = (run s a).bind fun s1 => run s1 b := by
  induction a generalizing s with
  | nil => rfl
  | cons op ops ih =>
    simp only [List.cons_append, run]
    cases step s op with
    | error e => rfl
    | ok s1 => simp only [Except.bind]; exact ih

theorem legalRun_append {s s1 : State} {a b : List Op} (h : LegalRun s (a ++ b))
    (ha : run s a = .ok s1) : LegalRun s a ∧ LegalRun s1 b := by
  induction a generalizing s with
  | nil => simp only [run, Except.ok.injEq] at ha; subst ha; exact ⟨trivial, h⟩
  | cons op ops ih =>
    obtain ⟨h1, h2⟩ := h
    simp only [run] at ha
    cases hs : step s op with
    | error e => rw [hs] at ha; cases ha
    | ok s2 =>
      rw [hs] at ha
      have := ih (h2 s2 hs) ha
      refine ⟨⟨h1, ?_⟩, this.2⟩
      intro s3 hs3
      rw [hs] at hs3; cases hs3; exact this.1

end Verif.Runtime.Heap
