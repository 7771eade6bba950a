import Verif.Lower.ReduceSimd

/-!
Lemmas shared by the models of the lowerings of tensor operators.
-/

namespace Verif.Lower

open Verif.Krnl (Buf)

section
variable {R : Type*}

/-- The value left at `x` by a sequence of stores: the last one, if any. -/
def lastStore {α : Type*} (L : List α) (tgt : α → Idx) (val : α → R) (old : Idx → R) (x : Idx) : R :=
  match (L.filter fun a => decide (tgt a = x)).getLast? with
  | some a => val a
  | none => old x

theorem storeLoop_spec {α : Type*} (f : α → Option (Idx × R)) (tgt : α → Idx) (val : α → R) :
    ∀ (L : List α) (m : Mem R), (∀ a ∈ L, f a = some (tgt a, val a) ∧ InShape (tgt a) m.shape) →
      L.foldlM (fun o a => (f a).bind fun p => Mem.store o p.1 p.2) m =
        some ⟨m.shape, lastStore L tgt val m.data⟩
  | [], m, _ => rfl
  | a :: L, m, h => by
    obtain ⟨h1, h2⟩ := h a (by simp)
    rw [List.foldlM_cons, h1]
    have e : Mem.store m (tgt a) (val a) =
        some { m with data := fun i => if i = tgt a then val a else m.data i } := by
      unfold Mem.store; rw [if_pos h2]
    simp only [Option.bind_some, e, Option.bind_eq_bind]
    rw [storeLoop_spec f tgt val L
      { m with data := fun i => if i = tgt a then val a else m.data i } (fun b hb => h b (by simp [hb]))]
    congr 2
    funext x
    unfold lastStore
    rw [List.filter_cons]
    by_cases hx : tgt a = x
    · simp only [hx, decide_true, if_true]
      cases hl : (L.filter fun a => decide (tgt a = x)).getLast? with
      | none =>
        have : L.filter (fun a => decide (tgt a = x)) = [] := List.getLast?_eq_none_iff.1 hl
        rw [this]; simp
      | some b => rw [List.getLast?_cons, hl]; rfl
    · simp only [hx, decide_false, Bool.false_eq_true, if_false]
      have : ¬ x = tgt a := fun h => hx h.symm
      simp only [this, if_false]

/-- A single store to `x`. -/
theorem lastStore_unique {α : Type*} {L : List α} {tgt : α → Idx} {val : α → R} {old : Idx → R} {x : Idx}
    {a : α} (ha : a ∈ L) (hx : tgt a = x) (hu : ∀ b ∈ L, tgt b = x → val b = val a) :
    lastStore L tgt val old x = val a := by
  unfold lastStore
  cases hl : (L.filter fun a => decide (tgt a = x)).getLast? with
  | none =>
    have : L.filter (fun a => decide (tgt a = x)) = [] := List.getLast?_eq_none_iff.1 hl
    have hm : a ∈ L.filter (fun a => decide (tgt a = x)) := List.mem_filter.2 ⟨ha, by simpa using hx⟩
    rw [this] at hm; simp at hm
  | some b =>
    have hb := List.mem_of_getLast? hl
    obtain ⟨h1, h2⟩ := List.mem_filter.1 hb
    exact hu b h1 (by simpa using h2)

theorem lastStore_none {α : Type*} {L : List α} {tgt : α → Idx} {val : α → R} {old : Idx → R} {x : Idx}
    (hu : ∀ b ∈ L, tgt b ≠ x) : lastStore L tgt val old x = old x := by
  unfold lastStore
  have : L.filter (fun a => decide (tgt a = x)) = [] := by
    rw [List.filter_eq_nil_iff]
    intro b hb
    simpa using hu b hb
  rw [this]
  rfl

/-! ### Positions -/

theorem idxs_append (a b : List ℤ) :
    idxs (a ++ b) = (idxs a).flatMap fun x => (idxs b).map (x ++ ·) := by
  induction a with
  | nil => simp [idxs]
  | cons d ds ih =>
    simp only [List.cons_append, idxs, ih, List.map_flatMap, List.flatMap_assoc, List.flatMap_map,
      List.map_map]
    rfl

theorem idxs_getElem {dims : List ℤ} (hd : ∀ d ∈ dims, 0 ≤ d) {o : Idx} (h : InShape o dims) :
    (idxs dims)[(lin dims o).toNat]? = some o := by
  have hb := lin_bounds h
  have hl := idxs_lin hd
  have hlen : (idxs dims).length = (numel dims).toNat := by
    have := congrArg List.length hl
    simpa [upto] using this
  have hlt : (lin dims o).toNat < (idxs dims).length := by rw [hlen]; omega
  rw [List.getElem?_eq_getElem hlt]
  congr 1
  have h1 : ((idxs dims).map (lin dims))[(lin dims o).toNat]? = some (lin dims o) := by
    rw [hl, upto, List.getElem?_map, List.getElem?_range (by omega)]
    simp only [Option.map_some]
    congr 1
    omega
  rw [List.getElem?_map, List.getElem?_eq_getElem hlt] at h1
  simp only [Option.map_some, Option.some.injEq] at h1
  have h2 : InShape (idxs dims)[(lin dims o).toNat] dims := mem_idxs.1 (List.getElem_mem hlt)
  rw [← unlin_lin h2, h1, unlin_lin h]

/-! ### Appending to a flat buffer -/

/-- Store at the position of a counter and increment it. -/
def push (st : Buf R × ℤ) (v : R) : Option (Buf R × ℤ) :=
  (Buf.vstore st.1 st.2 1 fun _ => v).map fun b => (b, st.2 + 1)

theorem push_list : ∀ (vs : List R) (b : Buf R) (c : ℤ), 0 ≤ c → c + vs.length ≤ b.size →
    ∃ b', vs.foldlM push (b, c) = some (b', c + vs.length) ∧ b'.size = b.size ∧
      (∀ y, y < c → b'.data y = b.data y) ∧
      ∀ (k : ℕ) (v : R), vs[k]? = some v → b'.data (c + k) = v
  | [], b, c, _, _ => ⟨b, by simp, rfl, fun _ _ => rfl, fun k v h => by simp at h⟩
  | v :: vs, b, c, h0, h => by
    rw [List.length_cons] at h
    push_cast at h
    have e : push (b, c) v = some (⟨b.size, fun y => if c ≤ y ∧ y < c + (1 : ℕ) then v else b.data y⟩, c + 1) := by
      unfold push Buf.vstore
      simp only
      rw [if_pos ⟨h0, by push_cast; omega⟩]
      rfl
    rw [List.foldlM_cons, e]
    obtain ⟨b', e', hs, hlo, hv⟩ := push_list vs
      ⟨b.size, fun y => if c ≤ y ∧ y < c + (1 : ℕ) then v else b.data y⟩ (c + 1) (by omega)
      (by simp only; omega)
    refine ⟨b', ?_, hs, ?_, ?_⟩
    · simp only [bind, Option.bind_some]
      rw [e']
      simp only [List.length_cons]
      congr 2
      push_cast
      ring
    · intro y hy
      rw [hlo y (by omega)]
      simp only
      rw [if_neg (by omega)]
    · intro k w hk
      cases k with
      | zero =>
        simp only [List.getElem?_cons_zero, Option.some.injEq] at hk
        subst hk
        rw [hlo _ (by push_cast; omega)]
        simp
      | succ k =>
        have := hv k w (by simpa using hk)
        rw [← this]
        congr 1
        push_cast
        ring

theorem push_flatMap {α : Type*} (g : α → List R) (f : (Buf R × ℤ) → α → Option (Buf R × ℤ)) :
    ∀ (L : List α) (st : Buf R × ℤ), (∀ a ∈ L, ∀ st, f st a = (g a).foldlM push st) →
      L.foldlM f st = (L.flatMap g).foldlM push st
  | [], st, _ => rfl
  | a :: L, st, h => by
    rw [List.foldlM_cons, List.flatMap_cons, List.foldlM_append, h a (by simp)]
    congr 1
    funext st'
    exact push_flatMap g f L st' fun b hb => h b (by simp [hb])

/-! ### Splitting indices -/

theorem inShape_split' {da db : List ℤ} {o : Idx} (h : InShape o (da ++ db)) :
    ∃ a b, o = a ++ b ∧ InShape a da ∧ InShape b db := by
  induction da generalizing o with
  | nil => exact ⟨[], o, rfl, inShape_nil, h⟩
  | cons d ds ih =>
    cases o with
    | nil => cases h
    | cons x xs =>
      obtain ⟨h1, h2⟩ := inShape_cons.1 h
      obtain ⟨a, b, rfl, ha, hb⟩ := ih h2
      exact ⟨x :: a, b, rfl, inShape_cons.2 ⟨h1, ha⟩, hb⟩

theorem inShape_app {a b : Idx} {da db : List ℤ} (ha : InShape a da) (hb : InShape b db) :
    InShape (a ++ b) (da ++ db) := (inShape_append ha.length).2 ⟨ha, hb⟩

theorem inShape_one {x d : ℤ} (h : 0 ≤ x ∧ x < d) : InShape [x] [d] := inShape_cons.2 ⟨h, inShape_nil⟩

/-- Reading positions `s, s+1, ...` of a list. -/
theorem getD_range_mid (a b c : List ℤ) (s n : ℕ) (hs : a.length = s) (hn : b.length = n) :
    ((List.range n).map fun j => (a ++ b ++ c).getD (s + j) 0) = b := by
  subst hs hn
  refine List.ext_getElem (by simp) fun i h1 h2 => ?_
  simp only [List.getElem_map, List.getElem_range, List.getD_eq_getElem?_getD]
  rw [List.append_assoc, List.getElem?_append_right (by omega)]
  have : a.length + i - a.length = i := by omega
  rw [this, List.getElem?_append_left h2, List.getElem?_eq_getElem h2]
  rfl

end

end Verif.Lower
