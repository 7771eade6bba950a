import Verif.Lower.LoopModel
import Verif.Lower.ConvLemmas
import Verif.Lower.GatherLemmas

/-!
Lemmas about the models of Loop, Scan and the sequence operations.
-/

namespace Verif.Lower

section
variable {T R : Type*}

/-! ### Copies -/

theorem emitCopy_spec {src dest : Mem R} {pre : Idx} {dp : List ℤ} (hd : dest.shape = dp ++ src.shape)
    (hp : InShape pre dp) :
    ∃ out, emitCopy src dest pre = some out ∧ out.shape = dest.shape ∧
      (∀ i, InShape i src.shape → out.data (pre ++ i) = src.data i) ∧
      ∀ k, (∀ i, InShape i src.shape → k ≠ pre ++ i) → out.data k = dest.data k := by
  unfold emitCopy iterate
  have h := storeNest (fun (i : Idx) o => (src.load i).bind fun v => o.store (pre ++ i) v) (fun i => pre ++ i) src.data
    (idxs src.shape) dest (by
      intro i hi
      have hi := mem_idxs.1 hi
      refine ⟨by rw [hd]; exact inShape_app hp hi, fun o _ => ?_⟩
      rw [mem_load hi, Option.bind_some])
  refine ⟨_, h, rfl, ?_, ?_⟩
  · intro i hi
    refine lastStore_unique (a := i) (mem_idxs.2 hi) rfl ?_
    intro j _ he
    rw [List.append_cancel_left he]
  · intro k hk
    exact lastStore_none fun i hi => (hk i (mem_idxs.1 hi)).symm

theorem readAll_cons {s : Src T} {ss : List (Src T)} {bufs vs : List T} :
    readAll (s :: ss) bufs = some vs ↔ ∃ t ts, s.read bufs = some t ∧ readAll ss bufs = some ts ∧ vs = t :: ts := by
  unfold readAll
  rw [List.mapM_cons]
  cases h1 : s.read bufs with
  | none => simp
  | some t =>
    cases h2 : List.mapM (fun s => Src.read s bufs) ss with
    | none => simp
    | some ts => simp [eq_comm]

theorem read_set {s : Src T} {bufs : List T} {j : ℕ} {t : T} (h : ∀ i, s = .buf i → i ≠ j) :
    s.read (bufs.set j t) = s.read bufs := by
  cases s with
  | val v => rfl
  | buf i =>
    have := h i rfl
    unfold Src.read
    simp only
    rw [List.getElem?_set_ne (by omega)]

theorem readAll_set {ss : List (Src T)} {bufs : List T} {j : ℕ} {t : T} (h : ∀ s ∈ ss, ∀ i, s = .buf i → i ≠ j) :
    readAll ss (bufs.set j t) = readAll ss bufs := by
  induction ss with
  | nil => rfl
  | cons s ss ih =>
    have ih := ih fun s hs => h s (by simp [hs])
    unfold readAll at *
    rw [List.mapM_cons, List.mapM_cons, ih, read_set (h s (by simp))]

/-- If no source is a buffer overwritten before, the copies transmit the values the sources had
before. -/
theorem copyBack_spec : ∀ (ss : List (Src T)) (j : ℕ) (bufs vs : List T),
    (∀ (k : ℕ) (i : ℕ), ss[k]? = some (.buf i) → j + k ≤ i) → j + ss.length ≤ bufs.length →
    readAll ss bufs = some vs →
    copyBack ss j bufs = some (bufs.take j ++ vs ++ bufs.drop (j + ss.length))
  | [], j, bufs, vs, _, _, hr => by
    have : vs = [] := by
      unfold readAll at hr
      simpa using hr.symm
    subst this
    simp [copyBack]
  | s :: ss, j, bufs, vs, h, hl, hr => by
    obtain ⟨t, ts, h1, h2, rfl⟩ := readAll_cons.1 hr
    rw [copyBack, h1, Option.bind_some]
    have hl' : j + (ss.length + 1) ≤ bufs.length := hl
    have hne : ∀ s ∈ ss, ∀ i, s = .buf i → i ≠ j := by
      intro s hs i hi
      obtain ⟨k, hk, rfl⟩ := List.mem_iff_getElem.1 hs
      have := h (k + 1) i (by rw [List.getElem?_cons_succ, List.getElem?_eq_getElem hk, hi])
      omega
    rw [copyBack_spec ss (j + 1) (bufs.set j t) ts
      (fun k i hk => by
        have := h (k + 1) i (by rw [List.getElem?_cons_succ]; exact hk)
        omega)
      (by rw [List.length_set]; omega) (by rw [readAll_set hne]; exact h2)]
    have e1 : (bufs.set j t).take (j + 1) = bufs.take j ++ [t] := by
      rw [List.take_add_one, List.take_set_of_le (le_refl j), List.getElem?_set_self (by omega)]
      rfl
    have e2 : (bufs.set j t).drop (j + 1 + ss.length) = bufs.drop (j + (s :: ss).length) := by
      rw [List.drop_set_of_lt (by omega)]
      congr 1
      simp only [List.length_cons]; omega
    rw [e1, e2]
    simp

theorem copyBack_all {ss : List (Src T)} {bufs vs : List T}
    (h : ∀ (k : ℕ) (i : ℕ), ss[k]? = some (.buf i) → k ≤ i) (hl : ss.length = bufs.length)
    (hr : readAll ss bufs = some vs) : copyBack ss 0 bufs = some vs := by
  rw [copyBack_spec ss 0 bufs vs (fun k i hk => by have := h k i hk; omega) (by omega) hr]
  simp [hl]

/-! ### Specification of the bodies -/

/-- Value of what a body yields: arguments have the value they had at the start of the
iteration. -/
def Yield.eval (y : Yield T) (iv : ℤ) (c : Bool) (args : List T) : Option T :=
  match y with
  | .carried i => args[i]?
  | .computed f => some (f iv c args)

def ScanYield.eval (y : ScanYield T) (args slices : List T) : Option T :=
  match y with
  | .carried i => args[i]?
  | .computed f => some (f args slices)

theorem run_read (y : Yield T) (iv : ℤ) (c : Bool) (args : List T) :
    (y.run iv c args).read args = y.eval iv c args := by cases y <;> rfl

theorem scan_run_read (y : ScanYield T) (args sl : List T) :
    (y.run args sl).read args = y.eval args sl := by cases y <;> rfl

theorem readAll_run (ys : List (Yield T)) (iv : ℤ) (c : Bool) (args : List T) :
    readAll (ys.map fun y => y.run iv c args) args = ys.mapM fun y => y.eval iv c args := by
  unfold readAll
  rw [List.mapM_map]
  congr 1
  funext y
  exact run_read y iv c args

theorem readAll_scan_run (ys : List (ScanYield T)) (args sl : List T) :
    readAll (ys.map fun y => y.run args sl) args = ys.mapM fun y => y.eval args sl := by
  unfold readAll
  rw [List.mapM_map]
  congr 1
  funext y
  exact scan_run_read y args sl

theorem mapM_length {α β : Type*} {f : α → Option β} : ∀ {L : List α} {M : List β}, L.mapM f = some M → M.length = L.length
  | [], M, h => by
    have : M = [] := by simpa using h.symm
    subst this; rfl
  | a :: L, M, h => by
    rw [List.mapM_cons] at h
    cases h1 : f a with
    | none => simp [h1] at h
    | some b =>
      cases h2 : L.mapM f with
      | none => simp [h1, h2] at h
      | some N =>
        simp [h1, h2] at h
        subst h
        simp [mapM_length h2]

/-! ### Sequences -/

theorem seq_store_slot {s s' : SeqBuf T} {i : ℤ} {t : T} (h : s.store i t = some s') :
    s'.len = s.len ∧ (0 ≤ i ∧ i < s.len) ∧ ∀ k, s'.slot k = if k = i then some t else s.slot k := by
  unfold SeqBuf.store at h
  split at h
  · next hc =>
    have := Option.some.inj h
    subst this
    exact ⟨rfl, hc, fun k => rfl⟩
  · cases h

/-- Stores elsewhere leave a slot alone. -/
theorem seqLoop_other (s : List T) (tgt : ℤ → ℤ) (k : ℤ) : ∀ (L : List ℤ) (o o' : SeqBuf T),
    (∀ i ∈ L, tgt i ≠ k) →
    L.foldlM (fun o i => (seqLoad s i).bind fun e => o.store (tgt i) e) o = some o' →
    o'.slot k = o.slot k ∧ o'.len = o.len
  | [], o, o', _, h => by
    have : o = o' := by simpa using h
    subst this; exact ⟨rfl, rfl⟩
  | i :: L, o, o', hk, h => by
    rw [List.foldlM_cons] at h
    cases h1 : seqLoad s i with
    | none => simp [h1] at h
    | some e =>
      cases h2 : o.store (tgt i) e with
      | none => simp [h1, h2] at h
      | some o1 =>
        simp only [h1, h2, Option.bind_eq_bind, Option.bind_some] at h
        obtain ⟨a, b, c⟩ := seq_store_slot h2
        obtain ⟨d1, d2⟩ := seqLoop_other s tgt k L o1 o' (fun j hj => hk j (by simp [hj])) h
        refine ⟨?_, d2.trans a⟩
        rw [d1, c, if_neg (by have := hk i (by simp); omega)]

/-- A copy loop with distinct targets. -/
theorem seqLoop_copy (s : List T) (tgt : ℤ → ℤ) : ∀ (L : List ℤ) (o : SeqBuf T),
    (L.map tgt).Nodup → (∀ i ∈ L, (0 ≤ i ∧ i < s.length) ∧ 0 ≤ tgt i ∧ tgt i < o.len) →
    ∃ o', L.foldlM (fun o i => (seqLoad s i).bind fun e => o.store (tgt i) e) o = some o' ∧ o'.len = o.len ∧
      (∀ i ∈ L, o'.slot (tgt i) = seqLoad s i) ∧ ∀ k, (∀ i ∈ L, tgt i ≠ k) → o'.slot k = o.slot k
  | [], o, _, _ => ⟨o, rfl, rfl, by simp, fun _ _ => rfl⟩
  | i :: L, o, hn, h => by
    rw [List.map_cons, List.nodup_cons] at hn
    obtain ⟨hi, ht⟩ := h i (by simp)
    have h1 : seqLoad s i = some (s[i.toNat]'(by omega)) := by
      unfold seqLoad
      rw [if_pos hi.1, List.getElem?_eq_getElem (by omega)]
    have h2 : o.store (tgt i) (s[i.toNat]'(by omega)) =
        some ⟨o.len, fun k => if k = tgt i then some (s[i.toNat]'(by omega)) else o.slot k⟩ := by
      unfold SeqBuf.store
      rw [if_pos ht]
    obtain ⟨o', e1, e2, e3, e4⟩ := seqLoop_copy s tgt L
      ⟨o.len, fun k => if k = tgt i then some (s[i.toNat]'(by omega)) else o.slot k⟩ hn.2
      (fun j hj => h j (by simp [hj]))
    refine ⟨o', ?_, e2, ?_, ?_⟩
    · rw [List.foldlM_cons]
      simp only [h1, h2, Option.bind_eq_bind, Option.bind_some]
      exact e1
    · intro j hj
      rcases List.mem_cons.1 hj with rfl | hj
      · rw [e4 (tgt j) (fun a ha he => hn.1 (by rw [← he]; exact List.mem_map_of_mem ha)), h1]
        simp
      · exact e3 j hj
    · intro k hk
      rw [e4 k fun a ha => hk a (by simp [ha])]
      simp only
      rw [if_neg (by have := hk i (by simp); omega)]

theorem mem_forIE {lb ub x : ℤ} : x ∈ forIE lb ub ↔ lb ≤ x ∧ x < ub := by
  have : forIE lb ub = rangeList lb ub := rfl
  rw [this, mem_rangeList]

theorem nodup_forIE (lb ub : ℤ) : (forIE lb ub).Nodup := by
  have : forIE lb ub = rangeList lb ub := rfl
  rw [this]
  exact (sorted_rangeList lb ub).imp fun h => ne_of_lt h

theorem mapM_none {α β : Type*} {f : α → Option β} {L : List α} {a : α} (ha : a ∈ L) (h : f a = none) : L.mapM f = none := by
  induction L with
  | nil => simp at ha
  | cons b L ih =>
    rw [List.mapM_cons]
    rcases List.mem_cons.1 ha with rfl | ha
    · simp [h]
    · rw [ih ha]; cases f b <;> rfl

end

end Verif.Lower
