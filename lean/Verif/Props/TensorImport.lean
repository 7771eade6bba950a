import Verif.TensorProto.Lemmas
/-!
# C124: import of tensors

The elements of an imported tensor are those that the model stores, in each of the three ways in
which ONNX stores them, on hosts of either byte order. External data is read from a file below the
directory of the model.
-/
namespace Verif.Props
open Verif.TensorProto

/-- **C124 (partial).** Data in raw bytes: the elements are the values. What is missing: a number
of bytes that does not agree with the shape, see `C124_size_false`. -/
theorem C124_raw_partial (slice : List Nat → Option Nat → Nat → Option (List Nat)) (fs : Fs)
    (dir : List Str) (big : Bool) (t : Ty) (vs : List Nat) (hv : ∀ v ∈ vs, t.Value v) (p : Proto)
    (hext : p.external = none) (hraw : p.rawData = some (vs.flatMap (leBytes t.width))) :
    importTensor slice fs dir big t vs.length p = .elements (vs.map some) := by
  unfold importTensor
  rw [hext]
  simp only [hraw]
  rw [fromRawBytes_eq big t _ vs fun v h => value_lt t v (hv v h)]
  exact filled_exact _ _ rfl

/-- Witness: two numbers of 16 bits, on a host with the most significant byte first. -/
example : importTensor (fun _ _ _ => none) ⟨fun _ => none, fun _ => none⟩ [] true .i16 2
    { rawData := some [1, 2, 255, 0] } = .elements [some 513, some 255] :=
  C124_raw_partial _ _ _ true .i16 [513, 255] (by simp [Ty.Value, Ty.width]) _ rfl rfl

/-- **C124 (partial).** Data in the field of its type. -/
theorem C124_field_partial (slice : List Nat → Option Nat → Nat → Option (List Nat)) (fs : Fs)
    (dir : List Str) (big : Bool) (t : Ty) (vs : List Nat) (hv : ∀ v ∈ vs, t.Value v) (p : Proto)
    (hext : p.external = none) (hraw : p.rawData = none) (hf : InField t p vs) :
    importTensor slice fs dir big t vs.length p = .elements (vs.map some) := by
  unfold importTensor
  rw [hext]
  simp only [hraw]
  rw [fromField_eq t _ p vs hv hf]
  exact filled_exact _ _ rfl

/-- Witness: -1 and 5 as `int8`. -/
example : importTensor (fun _ _ _ => none) ⟨fun _ => none, fun _ => none⟩ [] false .i8 2
    { int32Data := [-1, 5] } = .elements [some 255, some 5] :=
  C124_field_partial _ _ _ false .i8 [255, 5] (by simp [Ty.Value, Ty.width]) _ rfl rfl (by
    simp [InField, signed])

/-- **C124 (partial).** Data in a file: with entries in any order, the offset possibly absent,
and numerals without zeros in front, the elements are the values that the file has at the offset.
The location is relative, without `..`, and neither a link nor one of several names of a file.
`slice` reads the part of a file. -/
theorem C124_external_partial (slice : List Nat → Option Nat → Nat → Option (List Nat)) (fs : Fs)
    (dir : List Str) (big : Bool) (t : Ty) (vs : List Nat) (hv : ∀ v ∈ vs, t.Value v) (p : Proto)
    (entries : List (Str × Str)) (hext : p.external = some entries)
    (hnd : (entries.map Prod.fst).Nodup) (loc sl : Str) (off len names : Nat) (before after : List Nat)
    (hloc : entries.lookup keyLocation = some loc) (hne : loc ≠ [])
    (hrel : ∀ r, loc ≠ '/' :: r) (hup : ['.', '.'] ∉ components loc)
    (hoff : (entries.lookup keyOffset = none ∧ off = 0) ∨
      ∃ so, entries.lookup keyOffset = some so ∧ Decimal so off)
    (hlen : entries.lookup keyLength = some sl) (hdl : Decimal sl len)
    (hol : off < 2 ^ 64) (hll : len < 2 ^ 64)
    (hlink : LastIsNoLink fs.links dir (components loc))
    (hfile : fs.files (follow fs.links dir (components loc)) =
      some (names, before ++ vs.flatMap (leBytes t.width) ++ after))
    (hnames : names ≤ 1) (hb : before.length = off) (hl : len = vs.length * t.width)
    (hslice : ∀ bytes, off + len ≤ bytes.length →
      slice bytes (some len) off = some ((bytes.drop off).take len)) :
    importTensor slice fs dir big t vs.length p = .elements (vs.map some) := by
  have hmem : ∀ (l : List (Str × Str)), (l.map Prod.fst).Nodup → ∀ k v, (k, v) ∈ l →
      l.lookup k = some v := by
    intro l hnd
    induction l with
    | nil => intro k v h; simp at h
    | cons a l ih =>
      obtain ⟨k', v'⟩ := a
      simp only [List.map_cons, List.nodup_cons] at hnd
      intro k v h
      rcases List.mem_cons.1 h with h' | h'
      · obtain ⟨rfl, rfl⟩ := Prod.mk.inj h'
        simp [List.lookup]
      · have : k ≠ k' := by
          rintro rfl
          exact hnd.1 (List.mem_map.2 ⟨(k, v), h', rfl⟩)
        have hb : (k == k') = false := by simpa using this
        simp only [List.lookup, hb]
        exact ih hnd.2 k v h'
  have hpl := parseNumber_decimal sl len hdl hll
  have hre := readEntries_eq entries hnd {} (by
    intro k v hm hk
    have hlk := hmem entries hnd k v hm
    rcases hk with rfl | rfl
    · rcases hoff with ⟨h, _⟩ | ⟨so, h, hd⟩
      · rw [h] at hlk; cases hlk
      · rw [h] at hlk
        obtain rfl := Option.some.inj hlk
        rw [parseNumber_decimal _ off hd hol]
        rfl
    · rw [hlen] at hlk
      obtain rfl := Option.some.inj hlk
      rw [hpl]
      rfl)
  have ho : ((entries.lookup keyOffset).bind parseNumber).getD 0 = off := by
    rcases hoff with ⟨h, h0⟩ | ⟨so, h, hd⟩
    · rw [h, h0]; rfl
    · rw [h]
      simp [parseNumber_decimal so off hd hol]
  have hread : readExternal slice fs dir entries = some (vs.flatMap (leBytes t.width)) := by
    unfold readExternal
    rw [hre]
    simp only [hloc, ho, hlen, Option.bind_some, hpl, Option.getD_some, Option.some_or]
    have h1 : loc.isEmpty = false := by
      cases loc with
      | nil => exact (hne rfl).elim
      | cons a l => rfl
    have h2 : isAbsolute loc = false := by
      unfold isAbsolute
      split
      · exact (hrel _ rfl).elim
      · rfl
    have h3 : (components loc).contains ['.', '.'] = false := by
      rw [Bool.eq_false_iff]
      intro h
      exact hup (List.contains_iff_mem.1 h)
    have h4 : isSymlink fs dir loc = false := by
      unfold LastIsNoLink at hlink
      simp [isSymlink, hlink]
    simp only [h1, h2, h3, h4, Bool.false_eq_true, if_false, hfile,
      if_neg (show ¬ names > 1 by omega)]
    have hfl := flatMap_length t.width vs
    rw [hslice _ (by simp only [List.length_append]; omega)]
    congr 1
    rw [List.append_assoc, ← hb, List.drop_left, hl, ← hfl, List.take_left]
  unfold importTensor
  rw [hext]
  simp only [hread]
  exact fromMemoryBuffer_eq big t vs fun v h => value_lt t v (hv v h)

/-- Witness: the entries are met by a file with one byte before the data. -/
example :
    let fs : Fs := ⟨fun _ => none, fun p => if p = [['d'], ['f']] then some (1, [9, 1, 2]) else none⟩
    let slice : List Nat → Option Nat → Nat → Option (List Nat) := fun b l o =>
      some ((b.drop o).take (l.getD b.length))
    importTensor slice fs [['d']] true .u16 1
      { external := some [(keyLength, ['2']), (keyOffset, ['1']), (keyLocation, ['f'])] } =
      .elements [some 513] := by
  intro fs slice
  exact C124_external_partial slice fs [['d']] true .u16 [513] (by simp [Ty.Value, Ty.width]) _
    _ rfl (by decide) ['f'] ['2'] 1 2 1 [9] [] rfl (by simp) (by simp) (by decide)
    (Or.inr ⟨['1'], rfl, Decimal.digit 1 (by omega)⟩) rfl (Decimal.digit 2 (by omega))
    (by omega) (by omega) rfl (by decide) (by omega) rfl rfl (fun _ _ => rfl)

/-- **C124 (partial).** Whatever a model says, external data that is accepted comes from a file
below the directory of the model, with no other name, also when the location is a link. What is
missing: directories on the way that are links, see `C124_link_false`. -/
theorem C124_below_partial (slice : List Nat → Option Nat → Nat → Option (List Nat)) (fs : Fs)
    (dir : List Str) (entries : List (Str × Str)) (bytes : List Nat)
    (hl : ∀ loc, (keyLocation, loc) ∈ entries → ∀ cs, cs <+: components loc →
      cs ≠ components loc → LastIsNoLink fs.links dir cs)
    (h : readExternal slice fs dir entries = some bytes) :
    ∃ p names b len off, dir <+: p ∧ fs.files p = some (names, b) ∧ names ≤ 1 ∧
      slice b len off = some bytes := by
  unfold readExternal at h
  split at h
  · cases h
  · next e he =>
    split at h
    · cases h
    rename_i hne
    split at h
    · cases h
    split at h
    · cases h
    rename_i hup
    split at h
    · cases h
    rename_i hlink
    split at h
    · cases h
    · next names b hf =>
      split at h
      · cases h
      · refine ⟨_, names, b, e.length, e.offset, ?_, hf, by omega, h⟩
        have hmem : (keyLocation, e.location) ∈ entries := by
          rcases readEntries_location _ _ _ he with h0 | h0
          · rw [h0] at hne
            exact (hne rfl).elim
          · exact h0
        apply follow_below fs.links dir
        · intro cs hcs
          by_cases heq : cs = components e.location
          · rw [heq]
            cases hx : fs.links (step (follow fs.links dir (components e.location).dropLast)
              ((components e.location).getLast?.getD [])) with
            | none => exact hx
            | some q => exact (hlink (by simp [isSymlink, hx])).elim
          · exact hl _ hmem cs hcs heq
        intro c hc hcc
        exact hup (List.contains_iff_mem.2 (hcc ▸ hc))

/-- Witness: data is accepted, and there are links elsewhere. -/
example :
    let fs : Fs := ⟨fun p => if p = [['d'], ['g']] then some [['e']] else none,
      fun p => if p = [['d'], ['f']] then some (1, [7]) else none⟩
    (∀ loc, (keyLocation, loc) ∈ [(keyLocation, ['f'])] → ∀ cs, cs <+: components loc →
      cs ≠ components loc → LastIsNoLink fs.links [['d']] cs) ∧
      readExternal (fun b _ _ => some b) fs [['d']] [(keyLocation, ['f'])] = some [7] := by
  refine ⟨?_, by decide⟩
  intro loc hloc cs hcs hne
  simp only [List.mem_singleton, Prod.mk.injEq, true_and] at hloc
  subst hloc
  have e : components ['f'] = [['f']] := by decide
  rw [e] at hcs hne
  cases cs with
  | nil => rfl
  | cons c cs =>
    obtain ⟨rfl, h2⟩ := List.cons_prefix_cons.1 hcs
    rw [List.prefix_nil] at h2
    exact (hne (by rw [h2])).elim

/-- **C124 (disagreement).** Only the file itself is tested for a link: through a directory that
is a link, data is read that is not below the directory of the model. -/
theorem C124_link_false :
    ∃ (fs : Fs) (dir : List Str) (entries : List (Str × Str)) (secret : List Str),
      ¬ dir <+: secret ∧ fs.files secret = some (1, [7]) ∧
      (∀ p, p ≠ secret → fs.files p = none) ∧
      readExternal (fun b _ _ => some b) fs dir entries = some [7] := by
  refine ⟨⟨fun p => if p = [['d'], ['l']] then some [['e']] else none,
    fun p => if p = [['e'], ['f']] then some (1, [7]) else none⟩, [['d']],
    [(keyLocation, ['l', '/', 'f'])], [['e'], ['f']], by decide, rfl, ?_, by decide⟩
  intro p hp
  simp [hp]

/-- **C124 (disagreement).** The size of the data is not compared with the shape: with more raw
bytes than elements the import writes outside of its buffer, and with fewer there are elements to
which nothing was written. -/
theorem C124_size_false (slice : List Nat → Option Nat → Nat → Option (List Nat)) (fs : Fs)
    (dir : List Str) (big : Bool) (t : Ty) (vs : List Nat) (hv : ∀ v ∈ vs, t.Value v) (n : Nat) :
    let p : Proto := { rawData := some (vs.flatMap (leBytes t.width)) }
    (n < vs.length → importTensor slice fs dir big t n p = .outOfBounds) ∧
      (vs.length < n → ∃ l, importTensor slice fs dir big t n p = .elements l ∧ none ∈ l) := by
  intro p
  have e : importTensor slice fs dir big t n p = filled n vs :=
    fromRawBytes_eq big t _ vs fun v h => value_lt t v (hv v h)
  rw [e]
  refine ⟨?_, ?_⟩
  · intro h
    simp [filled, show ¬ vs.length ≤ n by omega]
  · intro h
    refine ⟨vs.map some ++ List.replicate (n - vs.length) none, ?_, ?_⟩
    · simp [filled, show vs.length ≤ n by omega]
    · simp
      omega

/-- Witness: two bytes for a tensor with one byte, and for one with three. -/
example : (∀ v ∈ [1, 2], Ty.u8.Value v) ∧ 1 < [1, 2].length ∧ [1, 2].length < 3 := by
  simp [Ty.Value, Ty.width]

/-- **C124 (disagreement).** An offset with a zero in front is taken as octal. -/
theorem C124_octal_false : parseNumber ['0', '1', '0'] = some 8 := by decide

end Verif.Props
