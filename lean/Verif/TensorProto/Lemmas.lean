import Verif.TensorProto.Model
import Mathlib.Tactic.IntervalCases
import Mathlib.Tactic.Ring
import Mathlib.Data.List.Induction
/-!
# Import of tensors: lemmas (C124)
-/
namespace Verif.TensorProto

/-! ## Bytes -/

theorem leBytes_length (w v : Nat) : (leBytes w v).length = w := by
  induction w generalizing v with
  | zero => rfl
  | succ w ih => simp [leBytes, ih]

theorem leBytes_lt (w v : Nat) : ∀ b ∈ leBytes w v, b < 256 := by
  induction w generalizing v with
  | zero => simp [leBytes]
  | succ w ih =>
    intro b hb
    simp only [leBytes, List.mem_cons] at hb
    rcases hb with rfl | hb
    · omega
    · exact ih _ b hb

theorem leValue_leBytes (w v : Nat) (h : v < 256 ^ w) : leValue (leBytes w v) = v := by
  induction w generalizing v with
  | zero =>
    simp at h
    simp [leBytes, leValue, h]
  | succ w ih =>
    have : v / 256 < 256 ^ w := by
      apply Nat.div_lt_of_lt_mul
      rw [pow_succ] at h
      omega
    simp only [leBytes, leValue, ih _ this]
    omega

theorem leBytes_leValue (bs : List Nat) (h : ∀ b ∈ bs, b < 256) :
    leBytes bs.length (leValue bs) = bs := by
  induction bs with
  | nil => rfl
  | cons b bs ih =>
    have hb := h b List.mem_cons_self
    have e1 : (b + 256 * leValue bs) % 256 = b := by omega
    have e2 : (b + 256 * leValue bs) / 256 = leValue bs := by omega
    simp only [List.length_cons, leBytes, leValue, e1, e2,
      ih fun c hc => h c (List.mem_cons_of_mem _ hc)]

theorem swapped_native (w v : Nat) (h : v < 256 ^ w) :
    swapped w (native true (leBytes w v)) = v := by
  have hr : ∀ b ∈ (leBytes w v).reverse, b < 256 := by
    intro b hb
    exact leBytes_lt w v b (List.mem_reverse.1 hb)
  have hl : (leBytes w v).reverse.length = w := by simp [leBytes_length]
  have := leBytes_leValue _ hr
  rw [hl] at this
  simp only [swapped, native, if_true, this, List.reverse_reverse]
  exact leValue_leBytes w v h

theorem one_byte (v : Nat) (h : v < 256 ^ 1) (big : Bool) : native big (leBytes 1 v) = v := by
  have : leBytes 1 v = [v] := by
    have : v % 256 = v := by omega
    simp [leBytes, this]
  cases big <;> simp [native, this, leValue]

/-- The value of an element that was written with its least significant byte first, after the
swap that the host needs. -/
theorem element_value (big : Bool) (w v : Nat) (hw : 0 < w) (h : v < 256 ^ w) :
    (if shouldSwap big w then swapped w (native big (leBytes w v)) else native big (leBytes w v)) =
      v := by
  unfold shouldSwap
  cases big with
  | false => simp [native, leValue_leBytes w v h]
  | true =>
    by_cases h1 : w > 1
    · simp [h1, swapped_native w v h]
    · have : w = 1 := by omega
      subst this
      simp [one_byte v h]

theorem drop_take_flatMap (w : Nat) (vs : List Nat) (rest : List Nat) (i : Nat)
    (hi : i < vs.length) :
    ((vs.flatMap (leBytes w) ++ rest).drop (i * w)).take w = leBytes w (vs[i]) := by
  induction vs generalizing i with
  | nil => simp at hi
  | cons v vs ih =>
    cases i with
    | zero =>
      have := leBytes_length w v
      simp only [List.flatMap_cons, Nat.zero_mul, List.drop_zero, List.getElem_cons_zero,
        List.append_assoc]
      rw [List.take_append_of_le_length (by omega), List.take_of_length_le (by omega)]
    | succ i =>
      have hl := leBytes_length w v
      have hi' : i < vs.length := by simpa using hi
      have e : (i + 1) * w = (leBytes w v).length + i * w := by rw [hl]; ring
      rw [List.flatMap_cons, List.append_assoc, e, List.drop_length_add_append]
      simpa using ih i hi'

theorem flatMap_length (w : Nat) (vs : List Nat) : (vs.flatMap (leBytes w)).length = vs.length * w := by
  induction vs with
  | nil => simp
  | cons v vs ih =>
    rw [List.flatMap_cons, List.length_append, ih, leBytes_length, List.length_cons]
    ring

theorem castArray_eq (big : Bool) (w : Nat) (hw : 0 < w) (vs : List Nat) :
    castArray big w (vs.flatMap (leBytes w)) = vs.map fun v => native big (leBytes w v) := by
  unfold castArray
  rw [flatMap_length, Nat.mul_div_cancel _ hw]
  apply List.ext_getElem (by simp)
  intro i h1 h2
  have hi : i < vs.length := by simpa using h2
  have := drop_take_flatMap w vs [] i hi
  rw [List.append_nil] at this
  simp [this]

/-! ## Writes -/

theorem writeAll_fits (vs : List Nat) (pre : List (Option Nat)) (m : Nat) (h : vs.length ≤ m) :
    writeAll vs pre.length (pre ++ List.replicate m none) =
      .elements (pre ++ vs.map some ++ List.replicate (m - vs.length) none) := by
  induction vs generalizing pre m with
  | nil => simp [writeAll]
  | cons v vs ih =>
    obtain ⟨m, rfl⟩ : ∃ k, m = k + 1 := ⟨m - 1, by simp at h; omega⟩
    have hw : write (pre ++ List.replicate (m + 1) none) pre.length v =
        some ((pre ++ [some v]) ++ List.replicate m none) := by
      simp [write, List.replicate_succ]
    have hv : vs.length ≤ m := by simpa using h
    have := ih (pre ++ [some v]) m hv
    simp only [List.length_append, List.length_singleton] at this
    simp only [writeAll, hw, this]
    simp

theorem writeAll_over (vs : List Nat) (pre : List (Option Nat)) (m : Nat) (h : m < vs.length) :
    writeAll vs pre.length (pre ++ List.replicate m none) = .outOfBounds := by
  induction vs generalizing pre m with
  | nil => simp at h
  | cons v vs ih =>
    cases m with
    | zero => simp [writeAll, write]
    | succ m =>
      have hw : write (pre ++ List.replicate (m + 1) none) pre.length v =
          some ((pre ++ [some v]) ++ List.replicate m none) := by
        simp [write, List.replicate_succ]
      have hv : m < vs.length := by simpa using h
      have := ih (pre ++ [some v]) m hv
      simp only [List.length_append, List.length_singleton] at this
      simp only [writeAll, hw, this]

/-- What writing a list to a buffer of `n` elements gives. -/
def filled (n : Nat) (vs : List Nat) : Outcome :=
  if vs.length ≤ n then .elements (vs.map some ++ List.replicate (n - vs.length) none)
  else .outOfBounds

theorem writeAll_eq (n : Nat) (vs : List Nat) :
    writeAll vs 0 (List.replicate n none) = filled n vs := by
  unfold filled
  split
  · next h => simpa using writeAll_fits vs [] n h
  · next h => simpa using writeAll_over vs [] n (by omega)

theorem filled_exact (n : Nat) (vs : List Nat) (h : vs.length = n) :
    filled n vs = .elements (vs.map some) := by
  simp [filled, h]

theorem width_pos (t : Ty) : 0 < t.width := by cases t <;> decide

theorem value_lt (t : Ty) (v : Nat) (h : t.Value v) : v < 256 ^ t.width := by
  unfold Ty.Value at h
  split at h
  · next e => subst e; simp [Ty.width]; omega
  · exact h

theorem fromRawBytes_eq (big : Bool) (t : Ty) (n : Nat) (vs : List Nat)
    (h : ∀ v ∈ vs, v < 256 ^ t.width) :
    fromRawBytes big t n (vs.flatMap (leBytes t.width)) = filled n vs := by
  unfold fromRawBytes fromArray
  rw [castArray_eq big _ (width_pos t), writeAll_eq, List.map_map]
  congr 1
  conv_rhs => rw [← List.map_id vs]
  apply List.map_congr_left
  intro v hv
  exact element_value big t.width v (width_pos t) (h v hv)

theorem fromMemoryBuffer_eq (big : Bool) (t : Ty) (vs : List Nat)
    (h : ∀ v ∈ vs, v < 256 ^ t.width) :
    fromMemoryBuffer big t vs.length (vs.flatMap (leBytes t.width)) = .elements (vs.map some) := by
  unfold fromMemoryBuffer
  by_cases hs : shouldSwap big t.width = true
  · unfold fromArray
    rw [if_pos hs, castArray_eq big _ (width_pos t), writeAll_eq, List.map_map]
    have e : vs.map (swapped t.width ∘ fun v => native big (leBytes t.width v)) = vs := by
      conv_rhs => rw [← List.map_id vs]
      apply List.map_congr_left
      intro v hv
      have := element_value big t.width v (width_pos t) (h v hv)
      rw [if_pos hs] at this
      exact this
    rw [e]
    exact filled_exact _ _ rfl
  · rw [if_neg hs]
    unfold readBuffer
    rw [if_pos (by rw [flatMap_length])]
    congr 1
    apply List.ext_getElem (by simp)
    intro i h1 h2
    have hi : i < vs.length := by simpa using h2
    have := drop_take_flatMap t.width vs [] i hi
    rw [List.append_nil] at this
    have e := element_value big t.width vs[i] (width_pos t) (h _ (List.getElem_mem hi))
    rw [if_neg hs] at e
    simp [this, e]

/-! ## Typed fields -/

theorem truncated_nat (w v : Nat) (h : v < 256 ^ w) : truncated w (v : Int) = v := by
  unfold truncated
  rw [Int.emod_eq_of_lt (by omega) (by exact_mod_cast h)]
  simp

theorem truncated_signed (w v : Nat) (h : v < 256 ^ w) : truncated w (signed w v) = v := by
  unfold signed
  split
  · exact truncated_nat w v h
  · have := truncated_nat w v h
    unfold truncated at this ⊢
    rw [Int.sub_emod_right]
    exact this

theorem deserialize_nat (t : Ty) (v : Nat) (h : t.Value v) : deserialize t (v : Int) = v := by
  unfold deserialize
  split
  · next e =>
    subst e
    simp [Ty.Value] at h
    interval_cases v <;> rfl
  · exact truncated_nat _ _ (value_lt t v h)

theorem deserialize_signed (t : Ty) (v : Nat) (h : t.Value v) (ht : t ≠ .bool) :
    deserialize t (signed t.width v) = v := by
  unfold deserialize
  rw [if_neg ht]
  exact truncated_signed _ _ (value_lt t v h)

theorem map_back (t : Ty) (f : Nat → Int) (vs : List Nat)
    (h : ∀ v ∈ vs, deserialize t (f v) = v) : (vs.map f).map (deserialize t) = vs := by
  rw [List.map_map]
  conv_rhs => rw [← List.map_id vs]
  exact List.map_congr_left h

theorem fromField_eq (t : Ty) (n : Nat) (p : Proto) (vs : List Nat) (h : ∀ v ∈ vs, t.Value v)
    (hp : InField t p vs) : fromField t n p = filled n vs := by
  have hn := map_back t (fun v : Nat => (v : Int)) vs fun v hv => deserialize_nat t v (h v hv)
  have hs : t ≠ .bool → (vs.map (signed t.width)).map (deserialize t) = vs := fun ht =>
    map_back t (signed t.width) vs fun v hv => deserialize_signed t v (h v hv) ht
  cases t with
  | f32 | f64 =>
    simp only [InField] at hp
    simp [fromField, fromArray, hp, writeAll_eq]
  | i8 | i16 | i32 | i64 =>
    simp only [InField] at hp
    have := hs (by decide)
    simp only [Ty.width] at this
    simp only [fromField, hp, this, writeAll_eq]
  | _ =>
    simp only [InField] at hp
    simp only [fromField, hp, hn, writeAll_eq]

/-! ## Numbers -/

theorem digitVal_digit (d : Nat) (hd : d < 10) : digitVal (Char.ofNat (48 + d)) = some d := by
  interval_cases d <;> decide

theorem scan_append (s t : Str) (a : Nat)
    (hs : ∀ c ∈ s, ∃ d, digitVal c = some d ∧ d < 10) :
    scan 10 (s ++ t) a = scan 10 t (scan 10 s a) := by
  induction s generalizing a with
  | nil => rfl
  | cons c s ih =>
    obtain ⟨d, hd, hlt⟩ := hs c List.mem_cons_self
    simp only [List.cons_append, scan, hd, hlt, if_true]
    exact ih _ fun c hc => hs c (List.mem_cons_of_mem _ hc)

theorem decimal_digits (s : Str) (n : Nat) (h : Decimal s n) :
    ∀ c ∈ s, ∃ d, digitVal c = some d ∧ d < 10 := by
  induction h with
  | digit d hd =>
    intro c hc
    simp only [List.mem_singleton] at hc
    exact ⟨d, by rw [hc, digitVal_digit d hd], hd⟩
  | more s n d hs hn hd ih =>
    intro c hc
    rcases List.mem_append.1 hc with hc | hc
    · exact ih c hc
    · simp only [List.mem_singleton] at hc
      exact ⟨d, by rw [hc, digitVal_digit d hd], hd⟩

theorem decimal_scan (s : Str) (n : Nat) (h : Decimal s n) : scan 10 s 0 = n := by
  induction h with
  | digit d hd => simp [scan, digitVal_digit d hd, hd]
  | more s n d hs hn hd ih =>
    rw [scan_append s _ 0 (decimal_digits s n hs), ih]
    simp [scan, digitVal_digit d hd, hd]
    omega

/-- A numeral is `0`, or does not begin with it. -/
theorem decimal_first (s : Str) (n : Nat) (h : Decimal s n) :
    ∃ c r, s = c :: r ∧ (n ≠ 0 → c ≠ '0') ∧ (n = 0 → r = [] ∧ c = '0') := by
  induction h with
  | digit d hd =>
    refine ⟨_, [], rfl, ?_, ?_⟩
    · intro h e
      have := digitVal_digit d hd
      rw [e] at this
      have h0 : digitVal '0' = some 0 := by decide
      rw [h0] at this
      exact h (Option.some.inj this).symm
    · rintro rfl
      exact ⟨rfl, by decide⟩
  | more s n d hs hn hd ih =>
    obtain ⟨c, r, rfl, h1, _⟩ := ih
    refine ⟨c, r ++ [Char.ofNat (48 + d)], rfl, fun _ => h1 (by omega), ?_⟩
    intro h
    omega

theorem parseNumber_decimal (s : Str) (n : Nat) (h : Decimal s n) (hn : n < 2 ^ 64) :
    parseNumber s = some n := by
  obtain ⟨c, r, rfl, h1, h2⟩ := decimal_first s n h
  by_cases h0 : n = 0
  · obtain ⟨rfl, rfl⟩ := h2 h0
    subst h0
    decide
  · have hc := h1 h0
    have hs := decimal_scan _ n h
    have hd : hasDigit 10 (c :: r) = true := by
      obtain ⟨d, e, hlt⟩ := decimal_digits _ n h c List.mem_cons_self
      simp [hasDigit, e, hlt]
    unfold parseNumber
    split
    · next e => exact (hc (List.cons.inj e).1).elim
    · next e => exact (hc (List.cons.inj e).1).elim
    · rw [if_pos hd, hs]
      congr 1
      omega

/-! ## Entries -/

theorem lookup_none {k : Str} {l : List (Str × Str)} (h : k ∉ l.map Prod.fst) :
    l.lookup k = none := by
  induction l with
  | nil => rfl
  | cons a l ih =>
    obtain ⟨k', v⟩ := a
    simp only [List.map_cons, List.mem_cons, not_or] at h
    have : (k == k') = false := by simpa using h.1
    simp [List.lookup, this, ih h.2]

theorem readEntries_eq (l : List (Str × Str)) (hnd : (l.map Prod.fst).Nodup) (e : Entries)
    (hp : ∀ k v, (k, v) ∈ l → k = keyOffset ∨ k = keyLength → (parseNumber v).isSome) :
    readEntries l e = some
      { location := (l.lookup keyLocation).getD e.location
        offset := ((l.lookup keyOffset).bind parseNumber).getD e.offset
        length := ((l.lookup keyLength).bind parseNumber).or e.length } := by
  induction l generalizing e with
  | nil => cases e; rfl
  | cons a l ih =>
    obtain ⟨k, v⟩ := a
    simp only [List.map_cons, List.nodup_cons] at hnd
    have hr := fun e => ih hnd.2 e fun k v hm => hp k v (List.mem_cons_of_mem _ hm)
    have hn := lookup_none hnd.1
    have ne1 : (keyOffset == keyLocation) = false := by decide
    have ne2 : (keyLength == keyLocation) = false := by decide
    have ne3 : (keyLocation == keyOffset) = false := by decide
    have ne4 : (keyLength == keyOffset) = false := by decide
    have ne5 : (keyLocation == keyLength) = false := by decide
    have ne6 : (keyOffset == keyLength) = false := by decide
    have q1 : keyOffset ≠ keyLocation := by decide
    have q2 : keyLength ≠ keyLocation := by decide
    have q3 : keyLength ≠ keyOffset := by decide
    unfold readEntries
    by_cases h1 : k = keyLocation
    · subst h1
      simp only [if_true, hr, List.lookup, beq_self_eq_true, ne1, ne2]
      simp [hn]
    · by_cases h2 : k = keyOffset
      · subst h2
        obtain ⟨n, hv⟩ := Option.isSome_iff_exists.1 (hp _ v List.mem_cons_self (Or.inl rfl))
        simp only [if_neg q1, if_true, hv, hr, List.lookup, beq_self_eq_true, ne3, ne4]
        simp [hn, hv]
      · by_cases h3 : k = keyLength
        · subst h3
          obtain ⟨n, hv⟩ := Option.isSome_iff_exists.1 (hp _ v List.mem_cons_self (Or.inr rfl))
          simp only [if_neg q2, if_neg q3, if_true, hv, hr, List.lookup, beq_self_eq_true, ne5, ne6]
          simp [hn, hv]
        · have b1 : (keyLocation == k) = false := by simpa using fun h => h1 h.symm
          have b2 : (keyOffset == k) = false := by simpa using fun h => h2 h.symm
          have b3 : (keyLength == k) = false := by simpa using fun h => h3 h.symm
          simp only [if_neg h1, if_neg h2, if_neg h3, hr, List.lookup, b1, b2, b3]

/-! ## Paths -/

theorem follow_below (links : List Str → Option (List Str)) (dir : List Str) (cs : List Str)
    (hl : ∀ xs, xs <+: cs → LastIsNoLink links dir xs)
    (hc : ∀ c ∈ cs, c ≠ ['.', '.']) : dir <+: follow links dir cs := by
  induction cs using List.reverseRecOn with
  | nil => exact List.prefix_rfl
  | append_singleton cs c ih =>
    have hh := ih (fun xs h => hl xs (h.trans (List.prefix_append _ _)))
      (fun c h => hc c (List.mem_append_left _ h))
    have hlast := hl (cs ++ [c]) List.prefix_rfl
    simp only [LastIsNoLink, List.dropLast_concat, List.getLast?_append, List.getLast?_singleton,
      Option.some_or, Option.getD_some] at hlast
    have hs : dir <+: step (follow links dir cs) c := by
      unfold step
      rw [if_neg (hc c (List.mem_append_right _ List.mem_cons_self))]
      split
      · exact hh
      · exact hh.trans (List.prefix_append _ _)
    have e : follow links dir (cs ++ [c]) = stepL links (follow links dir cs) c := by
      simp [follow, List.foldl_append]
    rw [e]
    simpa [stepL, hlast] using hs

theorem readEntries_location (l : List (Str × Str)) (e e' : Entries)
    (h : readEntries l e = some e') :
    e'.location = e.location ∨ (keyLocation, e'.location) ∈ l := by
  induction l generalizing e with
  | nil =>
    left
    rw [← Option.some.inj h]
  | cons a l ih =>
    obtain ⟨k, v⟩ := a
    have up : ∀ e1 : Entries, readEntries l e1 = some e' → e1.location = e.location →
        e'.location = e.location ∨ (keyLocation, e'.location) ∈ (k, v) :: l := by
      intro e1 h1 he
      rcases ih e1 h1 with h2 | h2
      · exact Or.inl (h2.trans he)
      · exact Or.inr (List.mem_cons_of_mem _ h2)
    unfold readEntries at h
    split at h
    · next hk =>
      rcases ih _ h with h2 | h2
      · right
        rw [h2, hk]
        exact List.mem_cons_self
      · exact Or.inr (List.mem_cons_of_mem _ h2)
    split at h
    · split at h
      · exact up _ h rfl
      · cases h
    split at h
    · split at h
      · exact up _ h rfl
      · cases h
    · exact up _ h rfl

end Verif.TensorProto
