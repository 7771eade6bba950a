import Verif.Hash.Lemmas
import Mathlib.Data.Nat.Digits.Lemmas

/-!
# C10, C11: the perfect hash of CategoryMapper
-/

namespace Verif.Props

open Verif.Hash

/-- C10, the table: for every nonempty dictionary whose values are `0..size-1`, whatever order
`llvm::sort` gives equal buckets and whatever the hash function is, once the construction finishes
every key is found with its value, and a lookup of anything else still returns an index in range
(no assertion fails). -/
theorem C10_find_index {κ : Type} (h : BitVec 32 → κ → BitVec 32) (keys : List κ)
    (hne : keys ≠ []) (dict : κ → Int) (hdict : ∀ k, 0 ≤ dict k)
    (hrange : ∀ k ∈ keys, dict k < keys.length) (bs : List (List κ))
    (hsort : SortedBuckets (buckets h keys.length keys) bs) (fuel : Nat) (t : Tables)
    (hb : build h keys.length dict fuel bs = some t) :
    (∀ k ∈ keys, findIndex h keys.length t k = some (dict k)) ∧
    (∀ q, ∃ k ∈ keys, findIndex h keys.length t q = some (dict k)) := by
  have hs : 0 < keys.length := List.length_pos_iff.2 hne
  obtain ⟨done, inv, hdone⟩ := build_inv keys hs hdict hsort hb
  have hr : ∀ k ∈ done, 0 ≤ dict k ∧ dict k < keys.length :=
    fun k hk => ⟨hdict k, hrange k ((hdone k).1 hk)⟩
  constructor
  · intro k hk
    obtain ⟨_, _, h3⟩ := findIndex_of_inv hs inv hr h k
    rw [h3, (inv.placed k ((hdone k).2 hk)).2]
  · intro q
    obtain ⟨_, ⟨k, hk, he⟩, h3⟩ := findIndex_of_inv hs inv hr h q
    exact ⟨k, (hdone k).1 hk, by rw [h3, he]⟩

/-- The slot of a key is never shared: two keys that read the same place of the value table are
equal. -/
theorem C10_distinct_slots {κ : Type} (h : BitVec 32 → κ → BitVec 32) (keys : List κ)
    (hne : keys ≠ []) (dict : κ → Int) (hdict : ∀ k, 0 ≤ dict k)
    (hinj : ∀ k ∈ keys, ∀ k' ∈ keys, dict k = dict k' → k = k') (bs : List (List κ))
    (hsort : SortedBuckets (buckets h keys.length keys) bs) (fuel : Nat) (t : Tables)
    (hb : build h keys.length dict fuel bs = some t) :
    let place := fun k => let d := t.G (slot h keys.length 0 k)
      if d < 0 then (-d - 1).toNat else slot h keys.length d k
    ∀ k ∈ keys, place k < keys.length ∧ ∀ k' ∈ keys, place k = place k' → k = k' := by
  intro place k hk
  have hs : 0 < keys.length := List.length_pos_iff.2 hne
  obtain ⟨done, inv, hdone⟩ := build_inv keys hs hdict hsort hb
  obtain ⟨p1, p2⟩ := inv.placed k ((hdone k).2 hk)
  refine ⟨p1, ?_⟩
  intro k' hk' he
  obtain ⟨_, p2'⟩ := inv.placed k' ((hdone k').2 hk')
  apply hinj k hk k' hk'
  rw [← p2, ← p2']
  exact congrArg t.V he

theorem decimalNat_length {n m : Nat} (hm : 0 < m) (h : n < 10 ^ m) :
    (decimalNat n).length ≤ m := by
  unfold decimalNat
  split
  · simp only [List.length_cons, List.length_nil]; omega
  · simp only [List.length_map, List.length_reverse]
    exact (Nat.digits_length_le_iff (by omega) n).2 h

/-- 64-bit integers above -10^18 print with at most 19 characters. -/
theorem decimal_length {v : Int} (h1 : -10 ^ 18 < v) (h2 : v < 2 ^ 63) :
    (decimal v).length ≤ 19 := by
  unfold decimal
  split
  · rw [List.length_cons]
    have := decimalNat_length (n := v.natAbs) (m := 18) (by omega) (by omega)
    omega
  · exact decimalNat_length (by omega) (by omega)

/-- Index of a category in the attribute list. -/
def indexIn {κ : Type} [DecidableEq κ] (cats : List κ) (k : κ) : Int := (cats.idxOf k : Int)

theorem indexIn_lt {κ : Type} [DecidableEq κ] {cats : List κ} {k : κ} (hk : k ∈ cats) :
    indexIn cats k < cats.length := by
  have := List.idxOf_lt_length_of_mem hk
  unfold indexIn; omega

theorem getD_indexIn {κ : Type} [DecidableEq κ] {cats : List κ} {k : κ} (hk : k ∈ cats) (d : κ) :
    cats.getD (indexIn cats k).toNat d = k := by
  have hlt := List.idxOf_lt_length_of_mem hk
  simp only [indexIn, Int.toNat_natCast, List.getD_eq_getElem?_getD,
    List.getElem?_eq_getElem hlt, Option.getD_some]
  exact List.getElem_idxOf hlt

/-- C10 for integer inputs. The categories are different 64-bit integers above -10^18. Every
category maps to its string, every other 64-bit integer maps to the default.
Missing from the full statement: categories at or below -10^18 (see `C10_int_truncation_false`). -/
theorem C10_category_int_partial {β : Type} (cats : List Int) (strs : Int → β) (default : β)
    (hne : cats ≠ []) (_hnd : cats.Nodup) (hlo : ∀ c ∈ cats, -10 ^ 18 < c)
    (hhi : ∀ c ∈ cats, c < 2 ^ 63) (keys : List Int) (hkeys : keys.Perm cats)
    (bs : List (List Int)) (hsort : SortedBuckets (buckets hashIntCompile keys.length keys) bs)
    (fuel : Nat) (t : Tables)
    (hb : build hashIntCompile keys.length (indexIn cats) fuel bs = some t) (x : Int) :
    mapInt keys.length t (fun i => cats.getD i.toNat 0) strs default x =
      some (if x ∈ cats then strs (indexIn cats x) else default) := by
  have hlen := hkeys.length_eq
  have hs : 0 < keys.length := by rw [hlen]; exact List.length_pos_iff.2 hne
  obtain ⟨done, inv, hdone⟩ := build_inv (dict := indexIn cats) keys hs
    (fun k => Int.natCast_nonneg _) hsort hb
  have hmem : ∀ k ∈ done, k ∈ cats := fun k hk => hkeys.mem_iff.1 ((hdone k).1 hk)
  have hr : ∀ k ∈ done, 0 ≤ indexIn cats k ∧ indexIn cats k < keys.length := by
    intro k hk
    have := indexIn_lt (hmem k hk)
    unfold indexIn at this ⊢; omega
  obtain ⟨_, ⟨k, hk, he⟩, h3⟩ := findIndex_of_inv hs inv hr hashIntRuntime x
  have hget : ∀ k ∈ cats, cats.getD (indexIn cats k).toNat 0 = k := fun k hk => getD_indexIn hk 0
  unfold mapInt
  rw [h3, Option.map_some, he]
  simp only [hget k (hmem k hk)]
  congr 1
  by_cases hx : x ∈ cats
  · have hxl := decimal_length (hlo x hx) (hhi x hx)
    have heq : ∀ d, hashIntRuntime d x = hashIntCompile d x := by
      intro d; unfold hashIntRuntime hashIntCompile; rw [List.take_of_length_le hxl]
    have hp : pos hashIntRuntime keys.length t x = pos hashIntCompile keys.length t x := by
      have hsl : ∀ d, slot hashIntRuntime keys.length d x = slot hashIntCompile keys.length d x :=
        fun d => by unfold slot; rw [heq]
      unfold pos
      rw [hsl 0]
      simp only [hsl]
    have hpl := (inv.placed x ((hdone x).2 (hkeys.mem_iff.2 hx))).2
    rw [hp, hpl] at he
    have hxk : x = k := by
      rw [← hget x hx, he, hget k (hmem k hk)]
    rw [if_pos hxk, if_pos hx, ← hxk]
  · rw [if_neg hx, if_neg]
    rintro rfl; exact hx (hmem x hk)

/-- Categories 4, 8, 15: two of them share a bucket, the construction finishes, 15 is found
at index 2 and 23 gets the default. -/
example :
    let bs : List (List Int) := [[4, 8], [15], []]
    SortedBuckets (buckets hashIntCompile 3 [4, 8, 15]) bs ∧
    ((build hashIntCompile 3 (indexIn [4, 8, 15]) 100 bs).bind fun t =>
      mapInt 3 t (fun i => [4, 8, 15].getD i.toNat 0) id (-1) 15) = some 2 ∧
    ((build hashIntCompile 3 (indexIn [4, 8, 15]) 100 bs).bind fun t =>
      mapInt 3 t (fun i => [4, 8, 15].getD i.toNat 0) id (-1) 23) = some (-1) := by
  refine ⟨⟨by decide +kernel, by decide +kernel⟩, by decide +kernel, by decide +kernel⟩

/-- The full statement of C10 is false for integers: the runtime truncates the decimal form of
integers at or below -10^18, hashes another string, and maps a category to the default. -/
theorem C10_int_truncation_false :
    ∃ (cats : List Int) (bs : List (List Int)) (t : Tables), cats.Nodup ∧
      (∀ c ∈ cats, -2 ^ 63 ≤ c ∧ c < 2 ^ 63) ∧
      SortedBuckets (buckets hashIntCompile cats.length cats) bs ∧
      build hashIntCompile cats.length (indexIn cats) 1 bs = some t ∧
      ∃ x ∈ cats, mapInt cats.length t (fun i => cats.getD i.toNat 0) some none x
        = some (none : Option Int) := by
  have hsome : (build hashIntCompile 2 (indexIn [-1000000000000000001, 2]) 1
      [[-1000000000000000001], [2]]).isSome := by decide +kernel
  obtain ⟨t, ht⟩ := Option.isSome_iff_exists.1 hsome
  refine ⟨[-1000000000000000001, 2], [[-1000000000000000001], [2]], t, by decide, by decide,
    ⟨by decide +kernel, by decide +kernel⟩, ht, -1000000000000000001, by decide, ?_⟩
  have : ((build hashIntCompile 2 (indexIn [-1000000000000000001, 2]) 1
      [[-1000000000000000001], [2]]).bind fun t =>
      mapInt 2 t (fun i => [-1000000000000000001, 2].getD i.toNat 0) some none
        (-1000000000000000001)) = some (none : Option Int) := by decide +kernel
  rw [ht] at this
  exact this

/-- Repeated categories break the lookup: with categories 1, 1, 2 the dictionary is
{1 ↦ 1, 2 ↦ 2} of size 2, and looking up 2 fails the range assertion. -/
theorem C10_duplicates_false :
    ∃ (dict : Int → Int) (bs : List (List Int)) (t : Tables),
      dict 1 = 1 ∧ dict 2 = 2 ∧ SortedBuckets (buckets hashIntCompile 2 [1, 2]) bs ∧
      build hashIntCompile 2 dict 1 bs = some t ∧ findIndex hashIntRuntime 2 t 2 = none := by
  have hsome : (build hashIntCompile 2 id 1 [[2], [1]]).isSome := by decide +kernel
  obtain ⟨t, ht⟩ := Option.isSome_iff_exists.1 hsome
  refine ⟨id, [[2], [1]], t, rfl, rfl, ⟨by decide +kernel, by decide +kernel⟩, ht, ?_⟩
  have : ((build hashIntCompile 2 id 1 [[2], [1]]).map fun t =>
      findIndex hashIntRuntime 2 t 2) = some none := by decide +kernel
  rw [ht] at this
  simpa using this

/-- C10 for string inputs (without NUL bytes). Every category maps to its value, and a string maps
to the default unless a category is a prefix of it. Missing from the full statement: non-keys that
extend a category (see `C10_string_prefix_false`). -/
theorem C10_category_string_partial {β : Type} (cats : List (List Byte)) (vals : Int → β)
    (default : β) (hne : cats ≠ []) (_hnd : cats.Nodup) (keys : List (List Byte))
    (hkeys : keys.Perm cats) (bs : List (List (List Byte)))
    (hsort : SortedBuckets (buckets hashBytes keys.length keys) bs) (fuel : Nat) (t : Tables)
    (hb : build hashBytes keys.length (indexIn cats) fuel bs = some t) (x : List Byte)
    (hx : x ∈ cats ∨ ∀ c ∈ cats, ¬ c <+: x) :
    mapString keys.length t (fun i => cats.getD i.toNat []) vals default x =
      some (if x ∈ cats then vals (indexIn cats x) else default) := by
  have hlen := hkeys.length_eq
  have hs : 0 < keys.length := by rw [hlen]; exact List.length_pos_iff.2 hne
  obtain ⟨done, inv, hdone⟩ := build_inv (dict := indexIn cats) keys hs
    (fun k => Int.natCast_nonneg _) hsort hb
  have hmem : ∀ k ∈ done, k ∈ cats := fun k hk => hkeys.mem_iff.1 ((hdone k).1 hk)
  have hr : ∀ k ∈ done, 0 ≤ indexIn cats k ∧ indexIn cats k < keys.length := by
    intro k hk
    have := indexIn_lt (hmem k hk)
    unfold indexIn at this ⊢; omega
  obtain ⟨_, ⟨k, hk, he⟩, h3⟩ := findIndex_of_inv hs inv hr hashBytes x
  have hget : ∀ k ∈ cats, cats.getD (indexIn cats k).toNat [] = k := fun k hk => getD_indexIn hk []
  unfold mapString
  rw [h3, Option.map_some, he]
  simp only [hget k (hmem k hk)]
  congr 1
  rcases hx with hx | hx
  · have hpl := (inv.placed x ((hdone x).2 (hkeys.mem_iff.2 hx))).2
    rw [hpl] at he
    have hxk : x = k := by rw [← hget x hx, he, hget k (hmem k hk)]
    subst hxk
    simp [strncmpEq, hx, indexIn]
  · have hk' := hx k (hmem k hk)
    have hxc : x ∉ cats := fun h => hx x h (List.prefix_refl x)
    have : strncmpEq x k k.length = false := by
      rw [strncmpEq, decide_eq_false_iff_not, List.take_length]
      intro hc
      exact hk' (by rw [← hc]; exact List.take_prefix _ _)
    rw [this]; simp [hxc]

example :
    let cats : List (List Byte) := [[99, 97, 116], [100, 111, 103], [101, 101, 108]]
    let bs : List (List (List Byte)) := [[[99, 97, 116], [101, 101, 108]], [[100, 111, 103]], []]
    SortedBuckets (buckets hashBytes 3 cats) bs ∧
    ((build hashBytes 3 (indexIn cats) 100 bs).bind fun t =>
      mapString 3 t (fun i => cats.getD i.toNat []) id (-1) [100, 111, 103]) = some 1 := by
  refine ⟨⟨by decide +kernel, by decide +kernel⟩, by decide +kernel⟩

/-- The full statement of C10 is false for strings: with the single category "a", the string "ab"
gets the value of "a" and not the default. -/
theorem C10_string_prefix_false :
    ∃ (cats : List (List Byte)) (bs : List (List (List Byte))) (t : Tables), cats.Nodup ∧
      SortedBuckets (buckets hashBytes cats.length cats) bs ∧
      build hashBytes cats.length (indexIn cats) 1 bs = some t ∧
      ∃ x, x ∉ cats ∧ mapString cats.length t (fun i => cats.getD i.toNat []) some none x
        = some (some (0 : Int)) := by
  have hsome : (build hashBytes 1 (indexIn [[97]]) 1 [[[97]]]).isSome := by decide +kernel
  obtain ⟨t, ht⟩ := Option.isSome_iff_exists.1 hsome
  refine ⟨[[97]], [[[97]]], t, by decide, ⟨by decide +kernel, by decide +kernel⟩, ht, [97, 98],
    by decide, ?_⟩
  have : ((build hashBytes 1 (indexIn [[97]]) 1 [[[97]]]).bind fun t =>
      mapString 1 t (fun i => [([97] : List Byte)].getD i.toNat []) some none
        [97, 98]) = some (some (0 : Int)) := by decide +kernel
  rw [ht] at this
  exact this

/-! ## C11 -/

/-- Parity of the low bits of the bytes of a string. -/
def parity (s : List Byte) : Bool := s.foldl (fun b c => b ^^ c.getLsbD 0) false

theorem foldl_xor (s : List Byte) (b : Bool) :
    s.foldl (fun b c => b ^^ c.getLsbD 0) b = (b ^^ parity s) := by
  unfold parity
  induction s generalizing b with
  | nil => simp
  | cons c s ih => rw [List.foldl_cons, List.foldl_cons, ih, ih (false ^^ _)]; simp

theorem slot_two (hval : Int) (s : List Byte) : slot hashBytes 2 hval s =
    ((((if BitVec.ofInt 32 hval = 0 then prime else BitVec.ofInt 32 hval).getLsbD 0)
      ^^ parity s)).toNat := by
  have h := hashBytes_lsb (BitVec.ofInt 32 hval) s
  rw [foldl_xor] at h
  rw [← h, ← BitVec.testBit_toNat, Nat.testBit_zero]
  unfold slot
  generalize (hashBytes (BitVec.ofInt 32 hval) s).toNat = n
  rcases Nat.mod_two_eq_zero_or_one n with h | h <;> simp [h]

theorem tryBucket_two_none {a b : List Byte} (hp : parity a = parity b) (hval : Int)
    (V : Nat → Int) : tryBucket hashBytes 2 hval V [a, b] [] = none := by
  have : slot hashBytes 2 hval b = slot hashBytes 2 hval a := by
    rw [slot_two, slot_two, hp]
  simp only [tryBucket, this]
  split
  · rfl
  · simp

theorem searchHval_two_none {a b : List Byte} (hp : parity a = parity b) (V : Nat → Int) :
    ∀ (fuel : Nat) (hval : Int), searchHval hashBytes 2 V [a, b] fuel hval = none
  | 0, _ => rfl
  | fuel + 1, hval => by
    simp only [searchHval, tryBucket_two_none hp]
    exact searchHval_two_none hp V fuel _

theorem sorted_pair {κ : Type} {x : List κ} {bs : List (List κ)} (hx : x.length = 2)
    (hsort : SortedBuckets [x, []] bs) : bs = [x, []] := by
  obtain ⟨hp, hs⟩ := hsort
  have hl := hp.length_eq
  match bs, hl with
  | [c, d], _ =>
    have hm : x ∈ [c, d] := hp.mem_iff.2 (by simp)
    have hm2 : [] ∈ [c, d] := hp.mem_iff.2 (by simp)
    simp only [List.pairwise_cons, List.mem_cons, List.not_mem_nil, or_false, forall_eq] at hs
    have h1 := hs.1
    rcases List.mem_cons.1 hm with rfl | h
    · rcases List.mem_cons.1 hm2 with h | h
      · rw [← h] at hx; simp at hx
      · simp at h; rw [← h]
    · simp at h; subst h
      rcases List.mem_cons.1 hm2 with h | h
      · rw [← h, hx] at h1; simp at h1
      · simp at h; rw [h] at hx; simp at hx

/-- C11 is false: for two keys of the same parity, such as "a" and "c", the construction never
finishes, whatever order the sort picks and however many passes it makes. -/
theorem C11_diverges (a b : List Byte) (hp : parity a = parity b) (dict : List Byte → Int)
    (bs : List (List (List Byte))) (hsort : SortedBuckets (buckets hashBytes 2 [a, b]) bs)
    (fuel : Nat) : build hashBytes 2 dict fuel bs = none := by
  have hab : slot hashBytes 2 0 b = slot hashBytes 2 0 a := by
    rw [slot_two, slot_two, hp]
  have hlt : slot hashBytes 2 0 a < 2 := slot_lt (by omega) _ _
  have hbs : bs = [[a, b], []] := by
    apply sorted_pair rfl
    refine ⟨?_, hsort.2⟩
    have h := hsort.1
    rcases (by omega : slot hashBytes 2 0 a = 0 ∨ slot hashBytes 2 0 a = 1) with h0 | h0
    · have : buckets hashBytes 2 [a, b] = [[a, b], []] := by
        simp [buckets, hab, h0, List.range_succ]
      rwa [this] at h
    · have : buckets hashBytes 2 [a, b] = [[], [a, b]] := by
        simp [buckets, hab, h0, List.range_succ]
      rw [this] at h
      exact h.trans (List.Perm.swap _ _ _)
  subst hbs
  simp only [build, placeLarge, searchHval_two_none hp]

/-- The statement of C11 fails for the dictionary {"a", "c"}. -/
theorem C11_false : ¬ ∀ keys : List (List Byte), keys ≠ [] → keys.Nodup →
    ∀ bs, SortedBuckets (buckets hashBytes keys.length keys) bs →
      ∃ fuel t, build hashBytes keys.length (indexIn keys) fuel bs = some t := by
  intro h
  have hs : SortedBuckets (buckets hashBytes 2 [[97], [99]]) [[[97], [99]], []] :=
    ⟨by decide +kernel, by decide +kernel⟩
  obtain ⟨fuel, t, ht⟩ := h [[97], [99]] (by simp) (by decide) _ hs
  have hn := C11_diverges [97] [99] (by decide) (indexIn [[97], [99]]) _ hs fuel
  have : (none : Option Tables) = some t := hn.symm.trans ht
  cases this

/-- The same for the integer dictionary {1, 3}. -/
theorem C11_int_false : ∀ (dict : Int → Int) (bs : List (List Int)),
    SortedBuckets (buckets hashIntCompile 2 [1, 3]) bs →
    ∀ fuel, build hashIntCompile 2 dict fuel bs = none := by
  intro dict bs hsort fuel
  have hb : buckets hashIntCompile 2 [1, 3] = [[1, 3], []] ∨
      buckets hashIntCompile 2 [1, 3] = [[], [1, 3]] := by decide +kernel
  have hbs : bs = [[1, 3], []] := by
    apply sorted_pair rfl
    refine ⟨?_, hsort.2⟩
    have h := hsort.1
    rcases hb with hb | hb
    · rwa [hb] at h
    · rw [hb] at h; exact h.trans (List.Perm.swap _ _ _)
  have hpar : parity (decimal 1) = parity (decimal 3) := by decide +kernel
  have htry : ∀ hval V, tryBucket hashIntCompile 2 hval V [1, 3] [] = none := by
    intro hval V
    have : slot hashIntCompile 2 hval 3 = slot hashIntCompile 2 hval 1 := by
      have h1 : slot hashIntCompile 2 hval 3 = slot hashBytes 2 hval (decimal 3) := rfl
      have h2 : slot hashIntCompile 2 hval 1 = slot hashBytes 2 hval (decimal 1) := rfl
      rw [h1, h2, slot_two, slot_two, hpar]
    simp only [tryBucket, this]
    split
    · rfl
    · simp
  have hsearch : ∀ fuel hval V, searchHval hashIntCompile 2 V [1, 3] fuel hval = none := by
    intro fuel
    induction fuel with
    | zero => intro _ _; rfl
    | succ n ih => intro hval V; simp only [searchHval, htry]; exact ih _ _
  subst hbs
  simp only [build, placeLarge, hsearch]

/-- What holds of C11: if no two keys share a first-level bucket, the construction finishes at
once. Missing: dictionaries with shared buckets, where it may diverge. -/
theorem C11_no_collision_partial {κ : Type} (h : BitVec 32 → κ → BitVec 32) (keys : List κ)
    (hne : keys ≠ []) (dict : κ → Int) (hdict : ∀ k, 0 ≤ dict k)
    (hinj : (keys.map (slot h keys.length 0)).Nodup) (bs : List (List κ))
    (hsort : SortedBuckets (buckets h keys.length keys) bs) :
    ∃ t, build h keys.length dict 0 bs = some t := by
  have hs : 0 < keys.length := List.length_pos_iff.2 hne
  have hle : ∀ b ∈ bs, b.length ≤ 1 := by
    intro b hb
    have := hsort.1.mem_iff.1 hb
    simp only [buckets, List.mem_map] at this
    obtain ⟨i, _, rfl⟩ := this
    have hsub : (keys.filter fun k => slot h keys.length 0 k = i).Sublist keys :=
      List.filter_sublist
    have hnd := hinj.sublist (hsub.map _)
    match hf : keys.filter fun k => slot h keys.length 0 k = i, hnd with
    | [], _ => simp
    | [x], _ => simp
    | x :: y :: l, hnd =>
      exfalso
      have hx : x ∈ keys.filter fun k => slot h keys.length 0 k = i := by rw [hf]; simp
      have hy : y ∈ keys.filter fun k => slot h keys.length 0 k = i := by rw [hf]; simp
      simp only [List.mem_filter, decide_eq_true_eq] at hx hy
      simp only [List.map_cons, List.nodup_cons, List.mem_cons, not_or] at hnd
      exact hnd.1.1 (hx.2.trans hy.2.symm)
  have hlarge : placeLarge h keys.length dict 0 bs Tables.init = some (Tables.init, bs) := by
    match bs, hle with
    | [], _ => rfl
    | [] :: bs, _ => rfl
    | [k] :: bs, _ => rfl
    | (k :: k' :: ks) :: bs, hle => have := hle (k :: k' :: ks) (by simp); simp at this
  have hbk := bucketed_perm hsort.1 (bucketed_buckets (h := h) (size := keys.length) keys)
  have inv0 : Hash.Inv h keys.length dict Tables.init [] bs := by
    constructor
    · simp
    · have h1 := sum_buckets_aux (slot h keys.length 0) keys.length keys
        (fun k _ => slot_lt hs _ _)
      have h2 : (bs.map List.length).sum = ((buckets h keys.length keys).map List.length).sum :=
        (hsort.1.map _).sum_nat
      rw [h2, buckets, h1]
      simp [freeCount, Tables.init]
    · intro s; exact Or.inl rfl
    · intro b hb; simp [Tables.init] at hb
  obtain ⟨t', _, r1, _, _⟩ := inv_placeSingle hs hdict bs (freeList keys.length Tables.init)
    Tables.init [] inv0 hbk (by intro k hk; simp at hk) hsort.2 hle (by
      rw [freeList, List.nodup_reverse]; exact List.nodup_range.filter _) (by
      intro s; simp [freeList])
  refine ⟨t', ?_⟩
  unfold build
  rw [hlarge]
  exact r1

example : ([[99, 97, 116], [100, 111, 116]].map (slot hashBytes 2 0)).Nodup := by decide +kernel

end Verif.Props
