import Verif.Instrument.Spec

/-! # Instrumentation (lemmas) -/

namespace Verif.Instrument

/-! ### Tags -/

theorem tag_bits {a b tag : ℕ} (ht : tag < 256) :
    opLen (setLens tag a b) = a % 64 ∧ nodeLen (setLens tag a b) = b % 512 := by
  have hlow : ∀ k, 8 ≤ k → tag.testBit k = false := fun k hk =>
    Nat.testBit_lt_two_pow (lt_of_lt_of_le ht (by
      calc 256 = 2 ^ 8 := rfl
        _ ≤ 2 ^ k := Nat.pow_le_pow_right (by norm_num) hk))
  have h63 : ∀ x : ℕ, x &&& 0x3F = x % 64 := fun x => Nat.and_two_pow_sub_one_eq_mod x 6
  have h511 : ∀ x : ℕ, x &&& 0x1FF = x % 512 := fun x => Nat.and_two_pow_sub_one_eq_mod x 9
  have e64 : (64 : ℕ) = 2 ^ 6 := rfl
  have e512 : (512 : ℕ) = 2 ^ 9 := rfl
  constructor
  · rw [opLen, setLens, h63, h63, h511]
    apply Nat.eq_of_testBit_eq
    intro i
    rw [e64, e512]
    simp only [Nat.testBit_mod_two_pow, Nat.testBit_shiftRight, Nat.testBit_or, Nat.testBit_shiftLeft,
      hlow (8 + i) (by omega)]
    by_cases hi : i < 6
    · simp [hi, show ¬ (24 ≤ 8 + i) by omega]
    · simp [hi]
  · rw [nodeLen, setLens, h511, h63, h511]
    apply Nat.eq_of_testBit_eq
    intro i
    rw [e64, e512]
    simp only [Nat.testBit_mod_two_pow, Nat.testBit_shiftRight, Nat.testBit_or, Nat.testBit_shiftLeft,
      hlow (24 + i) (by omega)]
    by_cases hi : i < 9
    · simp [hi, show ¬ (24 + i - 8 < 6) by omega]
    · simp [hi]

theorem tag_low {a b tag k : ℕ} (hk : k < 8) : (setLens tag a b).testBit k = tag.testBit k := by
  simp only [setLens, Nat.testBit_or, Nat.testBit_shiftLeft]
  simp [show ¬ 8 ≤ k by omega, show ¬ 24 ≤ k by omega]

theorem before_tag (op node : Name) : isBefore (callTag true op node) = true := by
  rw [isBefore, callTag, tag_low (by norm_num)]; decide

theorem after_tag (op node : Name) : isBefore (callTag false op node) = false := by
  rw [isBefore, callTag, tag_low (by norm_num)]; decide

/-- The tag of a record that has both calls. -/
theorem both_tag (op node : Name) : callTag true op node ||| callTag false op node = setLens 7 op.length node.length := by
  apply Nat.eq_of_testBit_eq
  intro i
  have : (7 : ℕ).testBit i = ((5 : ℕ).testBit i || (6 : ℕ).testBit i) := by
    rw [← Nat.testBit_or]; rfl
  simp only [callTag, setLens, Nat.testBit_or, this, if_true, Bool.false_eq_true, if_false]
  cases (5 : ℕ).testBit i <;> cases (6 : ℕ).testBit i <;> simp

/-! ### The runtime -/

/-- The record of an execution. -/
def recOf (x : Exec) : Rec := ⟨x.op, x.node, setLens 7 x.op.length x.node.length, some x.t1, some x.t2⟩

/-- The lines for one record. -/
def linesOf (init : ℤ) (last : Option ℤ) (x : Exec) : List Line :=
  [.perf (x.op.take (x.op.length % 64)) (x.node.take (x.node.length % 512)) true
      (do return x.t1 - (← last)) (some (x.t1 - init)),
    .perf (x.op.take (x.op.length % 64)) (x.node.take (x.node.length % 512)) false
      (some (x.t2 - x.t1)) (some (x.t2 - init))]

theorem printRec_recOf (s : St) (x : Exec) :
    printRec s (recOf x) = { s with out := s.out ++ linesOf s.init s.last x, last := some x.t2 } := by
  have hb : isBefore (recOf x).tag = true := by
    rw [recOf, isBefore, tag_low (by norm_num)]; decide
  obtain ⟨h1, h2⟩ := tag_bits (a := x.op.length) (b := x.node.length) (tag := 7) (by norm_num)
  rw [printRec]
  simp only [hb, if_true]
  simp only [printTime, recOf, h1, h2, linesOf, List.append_assoc, List.cons_append, List.nil_append]
  rfl

/-- What would be in the report if it were printed now. -/
def printed (s : St) : List Line × Option ℤ := ((flush s).out, (flush s).last)

theorem printStart_setBuf (b : List Rec) (s : St) : printStart (setBuf b s) = setBuf b (printStart s) := by
  by_cases h : s.started <;> simp [printStart, setBuf, h]

theorem printRec_setBuf (b : List Rec) (s : St) (r : Rec) : printRec (setBuf b s) r = setBuf b (printRec s r) := by
  simp only [printRec, printTime, setBuf]; split_ifs <;> rfl

theorem fold_setBuf : ∀ (l b : List Rec) (s : St), l.foldl printRec (setBuf b s) = setBuf b (l.foldl printRec s)
  | [], _, _ => rfl
  | r :: l, b, s => by rw [List.foldl_cons, List.foldl_cons, printRec_setBuf, fold_setBuf]

theorem fold_started : ∀ (l : List Rec) (s : St), (l.foldl printRec s).started = s.started
  | [], _ => rfl
  | r :: l, s => by
    rw [List.foldl_cons, fold_started]
    simp only [printRec, printTime]; split_ifs <;> rfl

theorem printStart_started (s : St) : (printStart s).started = true := by
  rw [printStart]; split_ifs with h
  · exact h
  · rfl

theorem setBuf_setBuf (a b : List Rec) (s : St) : setBuf a (setBuf b s) = setBuf a s := rfl

theorem flush_snoc (s : St) (r : Rec) :
    flush (setBuf (s.buf ++ [r]) s) = setBuf [] (printRec (printStart (flush s)) r) := by
  rw [flush, if_neg (by simp [setBuf])]
  rw [printStart_setBuf, fold_setBuf, setBuf_setBuf]
  show setBuf [] ((s.buf ++ [r]).foldl printRec (printStart s)) = _
  rw [List.foldl_append, List.foldl_cons, List.foldl_nil]
  by_cases h : s.buf = []
  · rw [flush, if_pos h, h, List.foldl_nil]
  · rw [flush, if_neg h, printStart_setBuf, printRec_setBuf, setBuf_setBuf]
    have h2 : printStart (s.buf.foldl printRec (printStart s)) = s.buf.foldl printRec (printStart s) := by
      conv_lhs => rw [printStart, if_pos (by rw [fold_started, printStart_started])]
    rw [h2]

theorem flush_buf (s : St) : (flush s).buf = [] := by
  rw [flush]; split_ifs with h
  · exact h
  · rfl

theorem flush_flush (s : St) : flush (flush s) = flush s := by
  conv_lhs => rw [flush, if_pos (flush_buf s)]

/-- Both calls of one execution, when the last record is of another operation. -/
theorem pair_flush (s : St) (x : Exec) (hl : ∀ r, s.buf.getLast? = some r → ¬ (r.op = x.op ∧ r.node = x.node)) :
    flush (call (call s (.before x.op x.node x.t1)) (.after x.op x.node x.t2)) =
      setBuf [] (printRec (printStart (flush s)) (recOf x)) ∧
    (call (call s (.before x.op x.node x.t1)) (.after x.op x.node x.t2)).buf.getLast? = some (recOf x) := by
  have h1 : call s (.before x.op x.node x.t1) = newEntry x.op x.node (callTag true x.op x.node) x.t1 s := by
    simp only [call, update]
    split
    · rename_i r hr
      rw [if_neg (hl r hr)]
    · rfl
  obtain ⟨s', hs', hf⟩ : ∃ s', (if maxRecords ≤ s.buf.length then flush s else s) = s' ∧ flush s' = flush s := by
    split_ifs
    · exact ⟨_, rfl, flush_flush s⟩
    · exact ⟨_, rfl, rfl⟩
  have h2 : call (call s (.before x.op x.node x.t1)) (.after x.op x.node x.t2) =
      setBuf (s'.buf ++ [recOf x]) s' := by
    rw [h1, newEntry]
    simp only [hs', call, update, setBuf, List.getLast?_append, List.getLast?_singleton, Option.some_or, setTime, before_tag,
      after_tag, if_true, and_self, List.dropLast_concat, Bool.false_eq_true, if_false, recOf, both_tag]
  rw [h2]
  exact ⟨by rw [flush_snoc, hf], by simp [setBuf]⟩

/-- The report of several executions, with names cut as the runtime cuts them. -/
def cut (x : Exec) : Exec := { x with op := x.op.take (x.op.length % 64), node := x.node.take (x.node.length % 512) }

theorem calls_cons (x : Exec) (xs : List Exec) :
    calls (x :: xs) = .before x.op x.node x.t1 :: .after x.op x.node x.t2 :: calls xs := by simp [calls]

theorem printStart_flush (s : St) : printStart (flush s) =
    { flush s with out := (flush s).out ++ (if (flush s).started then [] else [.start]), started := true } := by
  rw [printStart]
  split_ifs with h
  · rcases hf : flush s with ⟨a, b, c, d, e⟩
    simp_all
  · rfl

theorem run_flush : ∀ (xs : List Exec) (s : St) (prev : ℤ), Alternates xs →
    (∀ r x, s.buf.getLast? = some r → xs.head? = some x → ¬ (r.op = x.op ∧ r.node = x.node)) →
    (flush s).last = some prev →
    (flush ((calls xs).foldl call s)).out = (flush s).out ++
      (if xs = [] ∨ (flush s).started then [] else [.start]) ++ expected (flush s).init prev (xs.map cut)
  | [], s, prev, _, _, _ => by simp [calls, expected]
  | x :: xs, s, prev, ha, hd, hp => by
    obtain ⟨h1, h2⟩ := pair_flush s x (fun r hr => hd r x hr rfl)
    rw [calls_cons, List.foldl_cons, List.foldl_cons]
    set s2 := call (call s (.before x.op x.node x.t1)) (.after x.op x.node x.t2) with hs2
    rw [printRec_recOf, printStart_flush] at h1
    simp only [setBuf] at h1
    have hlast : (flush s2).last = some x.t2 := by rw [h1]
    have hinit : (flush s2).init = (flush s).init := by rw [h1]
    have hst : (flush s2).started = true := by rw [h1]
    have ha' : Alternates xs := by
      cases xs with
      | nil => trivial
      | cons y ys => exact ha.2
    have ih := run_flush xs s2 x.t2 ha' (by
      intro r y hr hy
      rw [h2] at hr
      obtain rfl : recOf x = r := by simpa using hr
      cases xs with
      | nil => simp at hy
      | cons z zs =>
        obtain rfl : z = y := by simpa using hy
        exact ha.1) hlast
    rw [ih, hinit, hst, h1]
    simp only [hp, linesOf, List.map_cons, expected, cut, or_true, if_true, List.append_nil, reduceCtorEq, false_or,
      List.append_assoc, List.cons_append, List.nil_append]
    rfl

end Verif.Instrument
