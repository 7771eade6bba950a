import Verif.Elems.BlockLemmas

namespace Verif.Elems

variable {W : Type}

/-! ## The recursive description of padding -/

/-- Number of elements of the padded result. -/
def padSize (axes : List (Nat × Nat × Nat)) : Nat := (axes.map fun a => a.1 + a.2.1 + a.2.2).prod

/-- The padded elements in row-major order, by recursion on the axes. -/
def padFull (v : W) : List (Nat × Nat × Nat) → (List Nat → W) → List W
  | [], f => [f []]
  | (d, l, r) :: axes, f =>
    List.replicate (l * padSize axes) v ++
      ((List.range d).map fun i => padFull v axes fun j => f (i :: j)).flatten ++
      List.replicate (r * padSize axes) v

theorem padFull_length (v : W) (axes : List (Nat × Nat × Nat)) (f : List Nat → W) :
    (padFull v axes f).length = padSize axes := by
  induction axes generalizing f with
  | nil => simp [padFull, padSize]
  | cons a axes ih =>
    obtain ⟨d, l, r⟩ := a
    simp only [padFull, List.length_append, List.length_replicate]
    rw [length_flatten_blocks fun b _ => ih _]
    simp only [padSize, List.map_cons, List.prod_cons]
    ring

/-- The input index behind an output index, if it lies in the window of the input. -/
def unpad : List (Nat × Nat × Nat) → List Nat → Option (List Nat)
  | [], _ => some []
  | (d, l, _) :: axes, i :: is =>
    if l ≤ i ∧ i < l + d then (unpad axes is).map ((i - l) :: ·) else none
  | _ :: _, [] => none

theorem padFull_get (v : W) (axes : List (Nat × Nat × Nat)) (f : List Nat → W) {idx : List Nat}
    (h : InBounds (axes.map fun a => a.1 + a.2.1 + a.2.2) idx) :
    (padFull v axes f)[rowMajor (axes.map fun a => a.1 + a.2.1 + a.2.2) idx]? =
      some (((unpad axes idx).map f).getD v) := by
  induction axes generalizing f idx with
  | nil =>
    have : idx = [] := by simpa using h
    subst this
    simp [padFull, rowMajor, unpad]
  | cons a axes ih =>
    obtain ⟨d, l, r⟩ := a
    cases idx with
    | nil => simp at h
    | cons i is =>
      rw [List.map_cons, inBounds_cons] at h
      obtain ⟨h1, h2⟩ := h
      simp only at h1
      have hlt := rowMajor_lt h2
      have hP : (axes.map fun a => a.1 + a.2.1 + a.2.2).prod = padSize axes := rfl
      have hbl : ∀ b, b < d → (padFull v axes fun j => f (b :: j)).length = padSize axes :=
        fun b _ => padFull_length v axes _
      have hmid := length_flatten_blocks hbl
      simp only [List.map_cons, rowMajor, padFull, unpad]
      rw [hP] at hlt ⊢
      generalize hq : rowMajor (axes.map fun a => a.1 + a.2.1 + a.2.2) is = q at hlt ⊢
      rcases Nat.lt_or_ge i l with hil | hil
      · have hlt2 : i * padSize axes + q < l * padSize axes := axis_lt hil hlt
        rw [List.append_assoc, List.getElem?_append_left (by simpa using hlt2),
          List.getElem?_replicate_of_lt hlt2, if_neg (by omega)]
        rfl
      · obtain ⟨k, rfl⟩ := Nat.exists_eq_add_of_le hil
        have e1 : (l + k) * padSize axes + q = l * padSize axes + (k * padSize axes + q) := by ring
        rw [List.append_assoc, List.getElem?_append_right (by rw [e1]; simp), List.length_replicate,
          e1, Nat.add_sub_cancel_left]
        rcases Nat.lt_or_ge k d with hkd | hkd
        · rw [List.getElem?_append_left (by rw [hmid]; exact axis_lt hkd hlt),
            getElem?_flatten_blocks hbl hkd hlt, ← hq, ih _ h2, if_pos (by omega)]
          simp [Option.map_map, Function.comp_def]
        · obtain ⟨m, rfl⟩ := Nat.exists_eq_add_of_le hkd
          have e2 : (d + m) * padSize axes + q = d * padSize axes + (m * padSize axes + q) := by ring
          rw [List.getElem?_append_right (by rw [hmid, e2]; omega), hmid, e2,
            Nat.add_sub_cancel_left, List.getElem?_replicate_of_lt (axis_lt (by omega) hlt),
            if_neg (by omega)]
          rfl

/-! ## The loop over rows -/

/-- Rows with separators between them. -/
def rowsOut {α : Type} (sep : α → List W) (row : α → List W) : List α → List W
  | [] => []
  | x :: xs => row x ++ (xs.map fun y => sep y ++ row y).flatten

theorem rowsOut_cons {α : Type} (sep row : α → List W) (x y : α) (ys : List α) :
    rowsOut sep row (x :: y :: ys) = row x ++ sep y ++ rowsOut sep row (y :: ys) := by
  simp [rowsOut]

theorem rowsOut_append {α : Type} (sep row : α → List W) (xs : List α) (y : α) (ys : List α)
    (h : xs ≠ []) :
    rowsOut sep row (xs ++ y :: ys) = rowsOut sep row xs ++ sep y ++ rowsOut sep row (y :: ys) := by
  cases xs with
  | nil => exact absurd rfl h
  | cons x xs => simp [rowsOut]

theorem rowsOut_map {α β : Type} (g : β → α) (sep row : α → List W) (xs : List β) :
    rowsOut sep row (xs.map g) = rowsOut (sep ∘ g) (row ∘ g) xs := by
  cases xs with
  | nil => rfl
  | cons x xs => simp [rowsOut, Function.comp_def]

theorem rowsOut_congr {α : Type} {sep sep' row row' : α → List W} {x : α} {xs : List α}
    (hr : ∀ y ∈ x :: xs, row y = row' y) (hs : ∀ y ∈ xs, sep y = sep' y) :
    rowsOut sep row (x :: xs) = rowsOut sep' row' (x :: xs) := by
  simp only [rowsOut]
  rw [hr x (by simp)]
  congr 2
  apply List.map_congr_left
  intro y hy
  rw [hr y (by simp [hy]), hs y hy]

theorem lastZero_cons (i : Nat) (y : List Nat) (m : Nat) :
    lastZero (i :: y) (m + 1) =
      if lastZero y m = 0 then (if i = 0 then 0 else 1) else lastZero y m + 1 := by
  induction m with
  | zero => simp [lastZero]
  | succ m ih =>
    rw [lastZero]
    simp only [List.getD_cons_succ]
    by_cases h : y.getD m 0 = 0
    · rw [if_pos h, ih]
      simp only [lastZero, if_pos h]
    · rw [if_neg h]
      simp only [lastZero, if_neg h]
      rw [if_neg (by omega)]

theorem lastZero_append (y z : List Nat) (m : Nat) (h : m ≤ y.length) :
    lastZero (y ++ z) m = lastZero y m := by
  induction m with
  | zero => rfl
  | succ m ih =>
    simp only [lastZero]
    have : (y ++ z).getD m 0 = y.getD m 0 := by
      simp only [List.getD_eq_getElem?_getD]
      rw [List.getElem?_append_left (by omega)]
    rw [this, ih (by omega)]

theorem lastZero_eq_zero {y : List Nat} (h : lastZero y y.length = 0) :
    y = List.replicate y.length 0 := by
  have key : ∀ m, m ≤ y.length → lastZero y m = 0 → ∀ k, k < m → y.getD k 0 = 0 := by
    intro m
    induction m with
    | zero => intro _ _ k hk; omega
    | succ m ih =>
      intro hm h0 k hk
      simp only [lastZero] at h0
      split at h0
      · rename_i hz
        rcases Nat.lt_or_ge k m with h1 | h1
        · exact ih (by omega) h0 k h1
        · have : k = m := by omega
          rw [this]; exact hz
      · omega
  apply List.ext_getElem
  · simp
  · intro k h1 h2
    have := key y.length (le_refl _) h k h1
    rw [getD_of_lt _ h1] at this
    simpa using this

/-- Shape of the input behind padded axes. -/
def dims (axes : List (Nat × Nat × Nat)) : List Nat := axes.map (·.1)

theorem allIndices_head {shape : List Nat} (h : 0 < shape.prod) :
    ∃ rest, allIndices shape = List.replicate shape.length 0 :: rest ∧
      List.replicate shape.length 0 ∉ rest := by
  have hl : 0 < (allIndices shape).length := by rw [length_allIndices]; exact h
  have h0 := getElem_allIndices (shape := shape) hl
  rw [unrank_zero] at h0
  match hm : allIndices shape with
  | [] => rw [hm] at hl; simp at hl
  | x :: rest =>
    have hx : x = List.replicate shape.length 0 := by
      rw [← h0]; simp [hm]
    refine ⟨rest, by rw [hx], ?_⟩
    have hnd := nodup_allIndices shape
    rw [hm, List.nodup_cons, hx] at hnd
    exact hnd.1

/-- Between the first and the last row of the input: rows with separators. `n` is the number of axes
but the last. -/
theorem padCore (v : W) (axes : List (Nat × Nat × Nat)) (d l r : Nat) (f : List Nat → W)
    (hp : 0 < (dims (axes ++ [(d, l, r)])).prod) :
    padFull v (axes ++ [(d, l, r)]) f =
      List.replicate (padSums (axes ++ [(d, l, r)])).1 v ++
      rowsOut (fun y => List.replicate
          (betweenPad (axes ++ [(d, l, r)]) (lastZero y axes.length)) v)
        (fun y => (List.range d).map fun t => f (y ++ [t])) (allIndices (dims axes)) ++
      List.replicate (padSums (axes ++ [(d, l, r)])).2.1 v := by
  induction axes generalizing f with
  | nil =>
    have hmap : ((List.range d).map fun i => [f [i]]).flatten = (List.range d).map fun i => f [i] := by
      induction List.range d with
      | nil => rfl
      | cons a as ih => simp [ih]
    simp [padFull, padSize, padSums, dims, allIndices, rowsOut, hmap]
  | cons a axes ih =>
    obtain ⟨d0, l0, r0⟩ := a
    have hp' : 0 < d0 * (dims (axes ++ [(d, l, r)])).prod := by simpa [dims] using hp
    have hd0 : 0 < d0 := Nat.pos_of_mul_pos_right hp'
    have hrest : 0 < (dims (axes ++ [(d, l, r)])).prod := Nat.pos_of_mul_pos_left hp'
    have hout : 0 < (dims axes).prod := by
      have : (dims (axes ++ [(d, l, r)])).prod = (dims axes).prod * d := by simp [dims]
      rw [this] at hrest
      exact Nat.pos_of_mul_pos_right hrest
    obtain ⟨tl, htl, hnot⟩ := allIndices_head hout
    have hdl : (dims axes).length = axes.length := by simp [dims]
    have hsz : padSize (axes ++ [(d, l, r)]) = (padSums (axes ++ [(d, l, r)])).2.2 := by
      generalize axes ++ [(d, l, r)] = L
      induction L with
      | nil => rfl
      | cons x L ihL =>
        obtain ⟨x1, x2, x3⟩ := x
        simp only [padSize, List.map_cons, List.prod_cons, padSums] at ihL ⊢
        rw [← ihL, Nat.mul_comm]
    set full := axes ++ [(d, l, r)] with hfull
    set sepC : List Nat → List W := fun y => List.replicate
      (betweenPad ((d0, l0, r0) :: full) (lastZero y (axes.length + 1))) v with hsepC
    set rowC : List Nat → List W := fun y => (List.range d).map fun t => f (y ++ [t]) with hrowC
    -- one block of rows
    have hblock : ∀ i, rowsOut sepC rowC ((allIndices (dims axes)).map (i :: ·)) =
        rowsOut (fun y => List.replicate (betweenPad full (lastZero y axes.length)) v)
          (fun y => (List.range d).map fun t => f (i :: (y ++ [t]))) (allIndices (dims axes)) := by
      intro i
      rw [rowsOut_map, htl]
      apply rowsOut_congr
      · intro y _; simp [hrowC]
      · intro y hy
        have hyb : InBounds (dims axes) y := mem_allIndices.1 (by rw [htl]; simp [hy])
        have hyl : y.length = axes.length := by rw [hyb.length, hdl]
        have hne : lastZero y axes.length ≠ 0 := fun h0 => by
          have := lastZero_eq_zero (y := y) (by rw [hyl]; exact h0)
          apply hnot
          rw [hdl, ← hyl, ← this]; exact hy
        simp only [hsepC, Function.comp_apply]
        rw [lastZero_cons, if_neg hne]
        simp [betweenPad]
    -- all blocks up to n
    have hall : ∀ n, 0 < n →
        ((List.range n).map fun i => padFull v full fun j => f (i :: j)).flatten =
          List.replicate (padSums full).1 v ++
          rowsOut sepC rowC ((List.range n).flatMap fun i => (allIndices (dims axes)).map (i :: ·)) ++
          List.replicate (padSums full).2.1 v := by
      intro n
      induction n with
      | zero => intro h; omega
      | succ n ihn =>
        intro _
        rw [List.range_succ, List.map_append, List.flatten_append, List.flatMap_append]
        simp only [List.map_cons, List.map_nil, List.flatten_cons, List.flatten_nil,
          List.append_nil, List.flatMap_cons, List.flatMap_nil]
        rw [ih (fun j => f (n :: j)) hrest]
        rcases Nat.eq_zero_or_pos n with h0 | hn
        · subst h0
          simp only [List.range_zero, List.map_nil, List.flatten_nil, List.nil_append,
            List.flatMap_nil]
          rw [hblock 0]
        · rw [ihn hn]
          have hne : ((List.range n).flatMap fun i => (allIndices (dims axes)).map (i :: ·)) ≠ [] := by
            rw [htl]
            obtain ⟨m, rfl⟩ : ∃ m, n = m + 1 := ⟨n - 1, by omega⟩
            rw [List.range_succ_eq_map]
            simp
          have hsplit : (allIndices (dims axes)).map (n :: ·) =
              (n :: List.replicate (dims axes).length 0) :: tl.map (n :: ·) := by
            rw [htl]; rfl
          rw [hsplit, rowsOut_append _ _ _ _ _ hne, ← hsplit, hblock n]
          have hsep : sepC (n :: List.replicate (dims axes).length 0) =
              List.replicate ((padSums full).2.1 + (padSums full).1) v := by
            simp only [hsepC]
            have hz : lastZero (List.replicate (dims axes).length 0) axes.length = 0 := by
              rw [hdl]
              have : ∀ k, k ≤ axes.length → lastZero (List.replicate axes.length 0) k = 0 := by
                intro k
                induction k with
                | zero => intro _; rfl
                | succ k ihk =>
                  intro hk
                  simp only [lastZero]
                  rw [if_pos (by rw [getD_of_lt _ (by simp; omega)]; simp), ihk (by omega)]
              exact this _ (le_refl _)
            rw [lastZero_cons, if_pos hz, if_neg (by omega)]
            simp only [betweenPad, List.drop_succ_cons, List.drop_zero]
            rw [Nat.add_comm]
          rw [hsep, List.replicate_add]
          simp only [List.append_assoc]
    rw [List.cons_append]
    simp only [padFull, padSums]
    rw [hall d0 hd0]
    have hidx : allIndices (dims ((d0, l0, r0) :: axes)) =
        (List.range d0).flatMap fun i => (allIndices (dims axes)).map (i :: ·) := rfl
    rw [hidx, hsz]
    simp only [List.length_cons]
    rw [← hfull]
    rw [Nat.add_comm (padSums full).1, List.replicate_add, List.replicate_add]
    simp only [List.append_assoc, hsepC]

theorem allIndices_snoc (shape : List Nat) (c : Nat) :
    allIndices (shape ++ [c]) =
      (allIndices shape).flatMap fun y => (List.range c).map fun t => y ++ [t] := by
  induction shape with
  | nil =>
    simp only [List.nil_append, allIndices, List.flatMap_cons, List.flatMap_nil, List.append_nil,
      List.map_cons, List.map_nil]
    induction List.range c with
    | nil => rfl
    | cons a as ih => simp [ih]
  | cons d ds ih =>
    simp only [List.cons_append, allIndices, ih, List.flatMap_assoc]
    congr 1
    funext i
    rw [List.map_flatMap, List.flatMap_map]
    congr 1
    funext y
    simp

theorem padRows_spec (buf : List W) (axes : List (Nat × Nat × Nat)) (rank c : Nat) (v : W)
    (hc : 0 < c) (mk : List Nat → IdxOffs Unit) (hmk : ∀ i, (mk i).index = i) (g : List Nat → W)
    (x : List Nat) (ys : List (List Nat))
    (hg : ∀ y ∈ x :: ys, ∀ t, t < c → getZ buf ((mk (y ++ [t])).offs ()) = some (g (y ++ [t])))
    (hlen : ∀ y ∈ x :: ys, y.length = rank - 1)
    (fuel : Nat) (hf : (x :: ys).length ≤ fuel) :
    padRows buf axes rank c v fuel
      (((x :: ys).flatMap fun y => (List.range c).map fun t => y ++ [t]).map mk) =
    some (rowsOut (fun y => List.replicate (betweenPad axes (lastZero y (rank - 1))) v)
      (fun y => (List.range c).map fun t => g (y ++ [t])) (x :: ys)) := by
  induction ys generalizing x fuel with
  | nil =>
    cases fuel with
    | zero => simp at hf
    | succ fuel =>
      unfold padRows
      simp only [List.flatMap_cons, List.flatMap_nil, List.append_nil, List.map_map,
        List.length_map, List.length_range, Nat.lt_irrefl, if_false]
      rw [List.take_of_length_le (by simp), mapM_map,
        mapM_some (g := fun t => g (x ++ [t])) (fun t ht => by
          simpa using hg x (by simp) t (by simpa using ht))]
      rw [List.drop_eq_nil_of_le (by simp)]
      simp [rowsOut]
  | cons y ys ih =>
    cases fuel with
    | zero => simp at hf
    | succ fuel =>
      have ih' := ih y (fun z hz => hg z (by simp at hz ⊢; tauto))
        (fun z hz => hlen z (by simp at hz ⊢; tauto)) fuel (by simp at hf ⊢; omega)
      unfold padRows
      rw [List.flatMap_cons, List.map_append]
      have hl : (((List.range c).map fun t => x ++ [t]).map mk).length = c := by simp
      rw [if_neg (by rw [List.length_append, hl]; omega), List.take_left' hl, List.drop_left' hl,
        List.map_map, mapM_map, mapM_some (g := fun t => g (x ++ [t])) (fun t ht => by
          simpa using hg x (by simp) t (by simpa using ht)), Option.bind_some]
      obtain ⟨c', rfl⟩ : ∃ c', c = c' + 1 := ⟨c - 1, by omega⟩
      have hhead : ∃ rest, (((y :: ys).flatMap fun y => (List.range (c' + 1)).map fun t => y ++ [t]).map
          mk) = mk (y ++ [0]) :: rest := by
        rw [List.flatMap_cons, List.range_succ_eq_map]
        exact ⟨_, rfl⟩
      obtain ⟨rest, hrest⟩ := hhead
      rw [hrest] at ih' ⊢
      simp only
      rw [ih', Option.map_some, rowsOut_cons, hmk, lastZero_append _ _ _ (by
        rw [hlen y (by simp)])]

theorem betweenPad_congr {a b : List (Nat × Nat × Nat)} (h : a = b) (k : Nat) :
    betweenPad a k = betweenPad b k := by rw [h]

theorem pad_spec {e : Elms W} (hB : Built e) {left right : List Nat} (v : W)
    (hl : left.length = e.shape.length) (hr : right.length = e.shape.length) :
    ∃ p, pad e left right v = some p ∧ Built p ∧
      p.shape = (e.shape.zip (left.zip right)).map (fun a => a.1 + a.2.1 + a.2.2) ∧
      ∀ idx, InBounds p.shape idx →
        value p idx = match unpad (e.shape.zip (left.zip right)) idx with
          | some k => value e k
          | none => some v := by
  set axes := e.shape.zip (left.zip right) with haxes
  have hdims : dims axes = e.shape := by
    rw [haxes]
    unfold dims
    exact List.map_fst_zip (by simp; omega)
  unfold pad
  simp only [← haxes]
  split
  · rename_i h0
    have hs : e.shape = [] := List.length_eq_zero_iff.1 h0
    have ha : axes = [] := by rw [haxes, hs]; rfl
    refine ⟨e, rfl, hB, by rw [hs, ha]; rfl, fun idx hi => ?_⟩
    rw [hs] at hi
    have : idx = [] := by simpa using hi
    subst this
    rw [ha]; rfl
  · rename_i h0
    split
    · rename_i hz
      refine ⟨_, rfl, by simpa [splat] using Built.ofSplat (axes.map fun a => a.1 + a.2.1 + a.2.2) v,
        rfl, fun idx hi => ?_⟩
      have hnone : unpad axes idx = none := by
        cases hu : unpad axes idx with
        | none => rfl
        | some k =>
          exfalso
          have key : ∀ (L : List (Nat × Nat × Nat)) (idx k : List Nat),
              unpad L idx = some k → InBounds (dims L) k := by
            intro L
            induction L with
            | nil => intro idx k h; simp [unpad] at h; subst h; simp [dims]
            | cons a L ih =>
              intro idx k h
              obtain ⟨d, l, r⟩ := a
              cases idx with
              | nil => simp [unpad] at h
              | cons i is =>
                simp only [unpad] at h
                split at h
                · rename_i hw
                  rw [Option.map_eq_some_iff] at h
                  obtain ⟨k', hk', rfl⟩ := h
                  simp only [dims, List.map_cons, inBounds_cons]
                  exact ⟨by omega, ih is k' hk'⟩
                · simp at h
          have := (key axes idx k hu).prod_pos
          rw [hdims] at this
          omega
      rw [hnone]
      exact value_splat (shape := axes.map fun a => a.1 + a.2.1 + a.2.2) v hi
    · rename_i hz
      have hw := hB.wf
      have hpos : 0 < e.shape.prod := Nat.pos_of_ne_zero hz
      -- split off the last axis
      have hane : axes ≠ [] := fun h => by
        rw [h] at hdims
        rw [← hdims] at h0
        exact h0 rfl
      obtain ⟨init, ⟨d, l, r⟩, hsplit⟩ : ∃ init last, axes = init ++ [last] :=
        ⟨axes.dropLast, axes.getLast hane, (List.dropLast_append_getLast hane).symm⟩
      have hshape : e.shape = dims init ++ [d] := by
        rw [← hdims, hsplit]; simp [dims]
      have hd : 0 < d := pos_of_mem_prod hpos (by rw [hshape]; simp)
      have hinit : 0 < (dims init).prod := by
        rw [hshape] at hpos
        simp at hpos
        exact Nat.pos_of_mul_pos_right (by simpa using hpos)
      obtain ⟨x, ys, hxy⟩ : ∃ x ys, allIndices (dims init) = x :: ys := by
        obtain ⟨tl, htl, -⟩ := allIndices_head hinit
        exact ⟨_, _, htl⟩
      have hv0 : ∃ g : List Nat → W, ∀ idx, InBounds e.shape idx → value e idx = some (g idx) :=
        ⟨fun idx => (value e idx).getD v, fun idx hi => by
          obtain ⟨w, hw'⟩ := hw.value_some hi; simp [hw']⟩
      obtain ⟨g, hg⟩ := hv0
      have hlastd : e.shape.getD (e.shape.length - 1) 0 = d := by
        rw [hshape]; simp
      have hrank : e.shape.length - 1 = init.length := by rw [hshape]; simp [dims]
      have hrows := padRows_spec e.bufWide axes e.shape.length d v hd
        (fun idx => ⟨rowMajor e.shape idx, idx, fun k => pos idx ((pack1 e.strides).map (· k))⟩)
        (fun _ => rfl) g x ys (by
          intro y hy t ht
          have hyb : InBounds (dims init) y := mem_allIndices.1 (by rw [hxy]; exact hy)
          have hb : InBounds e.shape (y ++ [t]) := by
            rw [hshape, inBounds_append hyb.length]; exact ⟨hyb, by simpa using ht⟩
          simp only [pack1_map, pos_map_nat, getZ_nat]
          rw [← hw.value_eq' hb, hg _ hb])
        (by
          intro y hy
          have hyb : InBounds (dims init) y := mem_allIndices.1 (by rw [hxy]; exact hy)
          rw [hyb.length, hrank]; simp [dims])
        e.shape.prod (by
          rw [← hxy, length_allIndices, hshape]
          simp
          exact Nat.le_mul_of_pos_right _ hd)
      rw [hlastd, stridesRange_spec _ _ (by simp [pack1, hw.len])]
      have hall : allIndices e.shape =
          (x :: ys).flatMap fun y => (List.range d).map fun t => y ++ [t] := by
        rw [hshape, allIndices_snoc, hxy]
      rw [hall, hrows, Option.bind_some]
      have hcore := padCore v init d l r g (by rw [← hsplit, hdims]; exact hpos)
      rw [← hsplit, hxy] at hcore
      rw [hrank]
      rw [← hcore]
      have hlen : (padFull v axes g).length = (axes.map fun a => a.1 + a.2.1 + a.2.2).prod :=
        padFull_length v axes g
      rw [if_pos hlen]
      refine ⟨_, rfl, Built.ofBuffer _ _ hlen, rfl, fun idx hi => ?_⟩
      rw [value_fromWideNums]
      have hi' : InBounds (axes.map fun a => a.1 + a.2.1 + a.2.2) idx := hi
      rw [padFull_get v axes g hi']
      have key : ∀ (L : List (Nat × Nat × Nat)) (idx k : List Nat),
          unpad L idx = some k → InBounds (dims L) k := by
        intro L
        induction L with
        | nil => intro idx k h; simp [unpad] at h; subst h; simp [dims]
        | cons a L ih =>
          intro idx k h
          obtain ⟨d, l, r⟩ := a
          cases idx with
          | nil => simp [unpad] at h
          | cons i is =>
            simp only [unpad] at h
            split at h
            · rename_i hw
              rw [Option.map_eq_some_iff] at h
              obtain ⟨k', hk', rfl⟩ := h
              simp only [dims, List.map_cons, inBounds_cons]
              exact ⟨by omega, ih is k' hk'⟩
            · simp at h
      cases hu : unpad axes idx with
      | none => rfl
      | some k =>
        have := key axes idx k hu
        rw [hdims] at this
        simp only [Option.map_some, Option.getD_some]
        rw [hg k this]

end Verif.Elems
