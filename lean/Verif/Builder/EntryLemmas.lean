import Verif.Builder.EntrySpec
import Verif.Builder.ShapeOptLemmas

/-!
The checks of the entry point: none reads out of bounds, and together they say what they should.
-/

namespace Verif.Builder

/-- The checks end without a read out of bounds, and succeed exactly when `P` holds. -/
def Sem (ts : List InTensor) (cs : List Check) (P : Prop) : Prop := ∃ b, runChecks ts cs = some b ∧ (b = true ↔ P)

theorem sem_congr {ts : List InTensor} {cs : List Check} {P Q : Prop} (h : Sem ts cs P) (e : P ↔ Q) : Sem ts cs Q := by
  obtain ⟨b, h1, h2⟩ := h
  exact ⟨b, h1, h2.trans e⟩

theorem sem_nil (ts : List InTensor) : Sem ts [] True := ⟨true, rfl, by simp⟩

theorem runChecks_append (ts : List InTensor) (b : List Check) : ∀ a : List Check,
    runChecks ts (a ++ b) = (runChecks ts a).bind fun x => if x then runChecks ts b else some false
  | [] => by simp [runChecks]
  | c :: a => by
    rw [List.cons_append, runChecks, runChecks]
    cases runCheck ts c with
    | none => rfl
    | some x => cases x <;> simp [runChecks_append ts b a]

theorem sem_append {ts : List InTensor} {a b : List Check} {P Q : Prop} (ha : Sem ts a P) (hb : P → Sem ts b Q) : Sem ts (a ++ b) (P ∧ Q) := by
  obtain ⟨x, h1, h2⟩ := ha
  unfold Sem
  rw [runChecks_append, h1]
  cases x with
  | true =>
    obtain ⟨y, h3, h4⟩ := hb (h2.1 rfl)
    refine ⟨y, by simpa using h3, ?_⟩
    rw [h4]
    exact ⟨fun h => ⟨h2.1 rfl, h⟩, And.right⟩
  | false =>
    refine ⟨false, rfl, ?_⟩
    have : ¬ P := fun h => by simpa using h2.2 h
    simp [this]

theorem sem_single {ts : List InTensor} {c : Check} {P : Prop} [Decidable P] (h : runCheck ts c = some (decide P)) : Sem ts [c] P := by
  refine ⟨decide P, ?_, by simp⟩
  rw [runChecks, h]
  by_cases hp : P <;> simp [hp, runChecks]

theorem sem_flatten {ts : List InTensor} {γ : Type} (f : γ → List Check) (P : γ → Prop) : ∀ l : List γ, (∀ x ∈ l, Sem ts (f x) (P x)) →
    Sem ts (l.map f).flatten (∀ x ∈ l, P x)
  | [], _ => sem_congr (sem_nil ts) (by simp)
  | x :: l, h => by
    rw [List.map_cons, List.flatten_cons]
    exact sem_congr (sem_append (h x (by simp)) fun _ => sem_flatten f P l fun y hy => h y (List.mem_cons_of_mem _ hy)) (by simp)

theorem sem_map {ts : List InTensor} {γ : Type} (f : γ → Check) (P : γ → Prop) (l : List γ) (h : ∀ x ∈ l, Sem ts [f x] (P x)) :
    Sem ts (l.map f) (∀ x ∈ l, P x) := by
  have := sem_flatten (fun x => [f x]) P l h
  have e : ∀ l : List γ, (l.map fun x => [f x]).flatten = l.map f := by
    intro l
    induction l with
    | nil => rfl
    | cons a l ih => simp [ih]
  rwa [e] at this

/-- What the first part checks for one tensor. -/
structure MatchSig (s : InSig) (t : InTensor) : Prop where
  dtype : ∀ ty, s.dtype = some ty → t.dtype = ty
  rank : t.shape.length = s.dims.length
  dims : ∀ (d : ℕ) (x : ℤ) (o : Option ℕ), t.shape[d]? = some x → s.dims[d]? = some o → match o with
    | none => 0 ≤ x
    | some v => x = v

theorem readSize_eq {ts : List InTensor} {i : ℕ} {t : InTensor} (h : ts[i]? = some t) (d : ℕ) : readSize ts i d = t.shape[d]? := by
  unfold readSize
  rw [h]
  rfl

theorem emitInput_sem {ts : List InTensor} {i : ℕ} {t : InTensor} (ht : ts[i]? = some t) (s : InSig) :
    Sem ts (emitInput (s, i)) (MatchSig s t) := by
  unfold emitInput
  have h1 : Sem ts (emitType i s) (∀ ty, s.dtype = some ty → t.dtype = ty) := by
    unfold emitType
    cases hs : s.dtype with
    | none => exact sem_congr (sem_nil ts) (by simp)
    | some ty => exact sem_congr (sem_single (P := t.dtype = ty) (by simp [runCheck, ht])) (by simp)
  have h2 : Sem ts [.rank i s.dims.length] (t.shape.length = s.dims.length) := sem_single (by simp [runCheck, ht])
  have h3 : t.shape.length = s.dims.length → Sem ts (s.dims.zipIdx.map (emitDim i))
      (∀ p ∈ s.dims.zipIdx, ∀ x, t.shape[p.2]? = some x → match p.1 with
        | none => 0 ≤ x
        | some v => x = v) := by
    intro hr
    apply sem_map
    rintro ⟨o, d⟩ hp
    have hd : s.dims[d]? = some o := (List.mk_mem_zipIdx_iff_getElem?).1 hp
    have hlt : d < t.shape.length := by
      rw [hr]
      exact (List.getElem?_eq_some_iff.1 hd).1
    have hx : t.shape[d]? = some t.shape[d] := List.getElem?_eq_getElem hlt
    cases o with
    | none =>
      refine sem_congr (sem_single (P := ¬ t.shape[d] < 0) ?_) ?_
      · simp only [emitDim, runCheck]
        rw [readSize_eq ht, hx]
        rfl
      · simp [hx]
    | some v =>
      refine sem_congr (sem_single (P := t.shape[d] = (v : ℤ)) ?_) ?_
      · simp only [emitDim, runCheck]
        rw [readSize_eq ht, hx]
        rfl
      · simp [hx]
  have := sem_append h1 fun _ => sem_append h2 h3
  refine sem_congr this ⟨fun ⟨a, b, c⟩ => ⟨a, b, fun d x o hx ho => ?_⟩, fun h => ⟨h.dtype, h.rank, ?_⟩⟩
  · exact c (o, d) (List.mk_mem_zipIdx_iff_getElem?.2 ho) x hx
  · rintro ⟨o, d⟩ hp x hx
    exact h.dims d x o hx (List.mk_mem_zipIdx_iff_getElem?.1 hp)

/-- What the first part checks. -/
def MatchAll (sig : List InSig) (ts : List InTensor) : Prop :=
  ts.length = sig.length ∧ ∀ (k : ℕ) (s : InSig) (t : InTensor), sig[k]? = some s → ts[k]? = some t → MatchSig s t

theorem emitInputs_sem (sig : List InSig) (ts : List InTensor) : Sem ts (emitInputs sig) (MatchAll sig ts) := by
  unfold emitInputs
  have h1 : Sem ts [.count sig.length] (sig.length = ts.length) := sem_single rfl
  have h2 : sig.length = ts.length → Sem ts (sig.zipIdx.map emitInput).flatten (∀ p ∈ sig.zipIdx, ∀ t, ts[p.2]? = some t → MatchSig p.1 t) := by
    intro hl
    apply sem_flatten
    rintro ⟨s, i⟩ hp
    have hs : sig[i]? = some s := List.mk_mem_zipIdx_iff_getElem?.1 hp
    have hlt : i < ts.length := by
      rw [← hl]
      exact (List.getElem?_eq_some_iff.1 hs).1
    have hx : ts[i]? = some ts[i] := List.getElem?_eq_getElem hlt
    exact sem_congr (emitInput_sem hx s) (by simp [hx])
  have := sem_append h1 h2
  rw [← List.flatMap_def] at this
  refine sem_congr this ⟨fun ⟨a, b⟩ => ⟨a.symm, fun k s t hs ht => b (s, k) (List.mk_mem_zipIdx_iff_getElem?.2 hs) t ht⟩,
    fun h => ⟨h.1.symm, ?_⟩⟩
  rintro ⟨s, k⟩ hp t ht
  exact h.2 k s t (List.mk_mem_zipIdx_iff_getElem?.1 hp) ht

/-! ### Bounds -/

theorem mapM_some_iff {γ δ : Type} (f : γ → Option δ) (dflt : δ) : ∀ (l : List γ) (r : List δ), l.mapM f = some r →
    (∀ x ∈ l, f x = some ((f x).getD dflt)) ∧ r = l.map fun x => (f x).getD dflt
  | [], r, h => by
    simp at h
    subst h
    simp
  | x :: l, r, h => by
    rw [List.mapM_cons] at h
    cases hx : f x with
    | none => rw [hx] at h; simp at h
    | some y =>
      rw [hx] at h
      cases hl : l.mapM f with
      | none => rw [hl] at h; simp at h
      | some ys =>
        rw [hl] at h
        simp at h
        subst h
        obtain ⟨h1, h2⟩ := mapM_some_iff f dflt l ys hl
        refine ⟨?_, by rw [h2]; simp [hx]⟩
        intro z hz
        rcases List.mem_cons.1 hz with rfl | hz
        · simp [hx]
        · exact h1 z hz

theorem mapM_isSome {γ δ : Type} (f : γ → Option δ) : ∀ l : List γ, (∀ x ∈ l, ∃ y, f x = some y) → ∃ r, l.mapM f = some r
  | [], _ => ⟨[], rfl⟩
  | x :: l, h => by
    obtain ⟨y, hy⟩ := h x (by simp)
    obtain ⟨r, hr⟩ := mapM_isSome f l fun z hz => h z (List.mem_cons_of_mem _ hz)
    exact ⟨y :: r, by rw [List.mapM_cons, hy, hr]; rfl⟩

theorem filterMap_flatten {γ δ : Type} (f : γ → Option δ) : ∀ l : List γ, l.filterMap f = (l.map fun x => (f x).toList).flatten
  | [] => rfl
  | x :: l => by
    rw [List.map_cons, List.flatten_cons, ← filterMap_flatten f l, List.filterMap_cons]
    cases f x <;> rfl

/-- A bound. -/
def BoundOk (upper : Bool) (x : ℤ) (b : ℕ) : Prop := if upper then x ≤ b else (b : ℤ) ≤ x

theorem boundInput_sem {upper : Bool} {sig : List InSig} {ts : List InTensor} (hm : MatchAll sig ts) {dims : List (Option ℕ)} {i : ℕ} {cs : List Check}
    (h : emitBoundInput upper sig dims i = some cs) :
    Sem ts cs (∀ t, ts[i]? = some t → ∀ (d : ℕ) (x : ℤ) (b : ℕ), t.shape[d]? = some x → dims[d]? = some (some b) → BoundOk upper x b) := by
  unfold emitBoundInput at h
  obtain ⟨s, hs, h⟩ := Option.bind_eq_some_iff.1 h
  split at h
  swap
  · simp at h
  rename_i hle
  simp only [Option.some.injEq] at h
  subst h
  have hlt : i < ts.length := by
    rw [hm.1]
    exact (List.getElem?_eq_some_iff.1 hs).1
  have ht : ts[i]? = some ts[i] := List.getElem?_eq_getElem hlt
  generalize ts[i] = t at ht
  have hr := (hm.2 i s t hs ht).rank
  rw [filterMap_flatten]
  refine sem_congr (sem_flatten _ (fun p => ∀ (x : ℤ) (b : ℕ), t.shape[p.2]? = some x → p.1 = some b → BoundOk upper x b) _ ?_) ?_
  · rintro ⟨o, d⟩ hp
    have hd : dims[d]? = some o := List.mk_mem_zipIdx_iff_getElem?.1 hp
    have hdl : d < t.shape.length := by
      have := (List.getElem?_eq_some_iff.1 hd).1
      omega
    have hx : t.shape[d]? = some t.shape[d] := List.getElem?_eq_getElem hdl
    cases o with
    | none => exact sem_congr (sem_nil ts) (by simp)
    | some v =>
      cases upper with
      | true =>
        refine sem_congr (sem_single (c := .dimLe i d v) (P := ¬ (v : ℤ) < t.shape[d]) ?_) ?_
        · simp only [runCheck]
          rw [readSize_eq ht, hx]
          rfl
        · simp [hx, BoundOk]
      | false =>
        refine sem_congr (sem_single (c := .dimGe i d v) (P := ¬ (v : ℤ) > t.shape[d]) ?_) ?_
        · simp only [runCheck]
          rw [readSize_eq ht, hx]
          rfl
        · simp [hx, BoundOk]
  · constructor
    · intro h t' ht' d x b hx hd
      rw [ht] at ht'
      cases ht'
      exact h (some b, d) (List.mk_mem_zipIdx_iff_getElem?.2 hd) x b hx rfl
    · rintro h ⟨o, d⟩ hp x b hx ho
      dsimp only at ho hx
      subst ho
      exact h t ht d x b hx (List.mk_mem_zipIdx_iff_getElem?.1 hp)

theorem boundEntry_sem {upper : Bool} {sig : List InSig} {ts : List InTensor} (hm : MatchAll sig ts) {p : ℤ × List (Option ℕ)} {cs : List Check}
    (h : emitBoundEntry upper sig p = some cs) :
    Sem ts cs (∀ i ∈ boundIds sig.length p.1, ∀ t, ts[i]? = some t → ∀ (d : ℕ) (x : ℤ) (b : ℕ), t.shape[d]? = some x → p.2[d]? = some (some b) →
      BoundOk upper x b) := by
  unfold emitBoundEntry at h
  obtain ⟨r, hr, e⟩ := Option.map_eq_some_iff.1 h
  obtain ⟨h1, h2⟩ := mapM_some_iff _ [] _ _ hr
  subst e h2
  exact sem_flatten _ _ _ fun i hi => boundInput_sem hm (h1 i hi)

theorem bounds_sem {upper : Bool} {sig : List InSig} {ts : List InTensor} (hm : MatchAll sig ts) {m : List (ℤ × List (Option ℕ))} {cs : List Check}
    (h : emitBounds upper sig m = some cs) :
    Sem ts cs (∀ p ∈ m, ∀ i ∈ boundIds sig.length p.1, ∀ t, ts[i]? = some t → ∀ (d : ℕ) (x : ℤ) (b : ℕ), t.shape[d]? = some x →
      p.2[d]? = some (some b) → BoundOk upper x b) := by
  unfold emitBounds at h
  obtain ⟨r, hr, e⟩ := Option.map_eq_some_iff.1 h
  obtain ⟨h1, h2⟩ := mapM_some_iff _ [] _ _ hr
  subst e h2
  exact sem_flatten _ _ _ fun i hi => boundEntry_sem hm (h1 i hi)

/-! ### The keys of the bounds -/

variable {β : Type}

/-- Every entry is the one that is found. -/
def KeysOk (m : List (ℤ × β)) : Prop := ∀ p ∈ m, lookupKey m p.1 = some p.2

theorem keysOk_insert (m : List (ℤ × β)) (i : ℤ) (b : β) (h : KeysOk m) : KeysOk (insertNew m i b) := by
  intro p hp
  rw [lookupKey_insertNew]
  unfold insertNew at hp
  split at hp
  · rw [h p hp]
    rfl
  · rename_i hn
    rcases List.mem_append.1 hp with hp | hp
    · rw [h p hp]
      rfl
    · rw [List.mem_singleton] at hp
      subst hp
      have : lookupKey m i = none := by
        cases hl : lookupKey m i with
        | none => rfl
        | some v => rw [hl] at hn; simp at hn
      simp [this]

theorem keysOk_insertAll (b : β) : ∀ (ids : List ℤ) (m : List (ℤ × β)), KeysOk m → KeysOk (ids.foldl (fun m j => insertNew m j b) m)
  | [], _, h => h
  | j :: ids, m, h => keysOk_insertAll b ids _ (keysOk_insert m j b h)

theorem keysOk_parse (s : List Char) (m : List (ℤ × List (Option ℕ))) (h : parseShapeInformation s = some m) : KeysOk m := by
  unfold parseShapeInformation at h
  have key : ∀ (l : List (List Char)) (m0 m : List (ℤ × List (Option ℕ))), KeysOk m0 →
      l.foldlM (fun m e => (parseEntry e).map fun p => p.1.foldl (fun m i => insertNew m i p.2) m) m0 = some m → KeysOk m := by
    intro l
    induction l with
    | nil => intro m0 m h0 h; simp at h; exact h ▸ h0
    | cons e l ih =>
      intro m0 m h0 h
      rw [List.foldlM_cons] at h
      cases hp : parseEntry e with
      | none => rw [hp] at h; simp at h
      | some p =>
        rw [hp] at h
        exact ih _ m (keysOk_insertAll p.2 p.1 m0 h0) h
  exact key _ [] m (by intro p hp; simp at hp) h

theorem mem_of_lookup (m : List (ℤ × β)) (i : ℤ) (b : β) (h : lookupKey m i = some b) : (i, b) ∈ m := by
  unfold lookupKey at h
  obtain ⟨p, hp, e⟩ := Option.map_eq_some_iff.1 h
  have := List.find?_some hp
  simp only [decide_eq_true_eq] at this
  subst this e
  exact List.mem_of_find?_eq_some hp

theorem find_names (es : List ShapeEntry) (k : ℕ) : (es.find? fun e => (k : ℤ) ∈ e.sel.ids) = es.find? fun e => e.sel.names k := by
  have e1 : (fun e : ShapeEntry => decide ((k : ℤ) ∈ e.sel.ids)) = fun e => e.sel.names k := by
    funext e
    rw [Bool.eq_iff_iff, decide_eq_true_iff]
    exact mem_ids_nat e.sel k
  rw [e1]

theorem find_all (es : List ShapeEntry) : (es.find? fun e => (-1 : ℤ) ∈ e.sel.ids) = es.find? fun e => e.sel.isAll := by
  have e2 : (fun e : ShapeEntry => decide ((-1 : ℤ) ∈ e.sel.ids)) = fun e => e.sel.isAll := by
    funext e
    rw [Bool.eq_iff_iff, decide_eq_true_iff]
    exact mem_ids_all e.sel
  rw [e2]

theorem ids_range (s : Sel) (i : ℤ) (h : i ∈ s.ids) : i = -1 ∨ 0 ≤ i := by
  cases s with
  | all => left; simpa [Sel.ids] using h
  | one k => right; simp only [Sel.ids, mem_idRange] at h; omega
  | range a b => right; simp only [Sel.ids, mem_idRange] at h; omega

/-- The bounds of the map are those of the option. -/
theorem bounds_iff {n : ℕ} {es : List ShapeEntry} {m : List (ℤ × List (Option ℕ))} (hk : KeysOk m)
    (hl : ∀ i, lookupKey m i = (es.find? fun e => i ∈ e.sel.ids).map (·.dims)) (k : ℕ) (hkn : k < n) (d b : ℕ) :
    (∃ p ∈ m, k ∈ boundIds n p.1 ∧ p.2[d]? = some (some b)) ↔ BoundFor es k d b := by
  constructor
  · rintro ⟨p, hp, hi, hd⟩
    have h1 := hk p hp
    rw [hl] at h1
    obtain ⟨e, he, e'⟩ := Option.map_eq_some_iff.1 h1
    have hmem : p.1 ∈ e.sel.ids := by simpa using List.find?_some he
    unfold boundIds at hi
    by_cases hp1 : p.1 = -1
    · right
      rw [hp1, find_all] at he
      exact ⟨e, he, by rw [e']; exact hd⟩
    · left
      rw [if_neg hp1, List.mem_singleton] at hi
      have : p.1 = (k : ℤ) := by
        rcases ids_range _ _ hmem with h | h
        · exact absurd h hp1
        · omega
      rw [this, find_names] at he
      exact ⟨e, he, by rw [e']; exact hd⟩
  · rintro (⟨e, he, hd⟩ | ⟨e, he, hd⟩)
    · have : lookupKey m k = some e.dims := by rw [hl, find_names, he]; rfl
      exact ⟨_, mem_of_lookup m _ _ this, by simp only [boundIds]; rw [if_neg (by omega)]; simp, hd⟩
    · have : lookupKey m (-1) = some e.dims := by rw [hl, find_all, he]; rfl
      exact ⟨_, mem_of_lookup m _ _ this, by simp only [boundIds, if_true]; exact List.mem_range.2 hkn, hd⟩

end Verif.Builder
