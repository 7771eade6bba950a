import Verif.Instrument.Spec

/-! # The pass that adds instrumentation (lemmas) -/

namespace Verif.Instrument

theorem regions_induct {r1 r2 : Code} {P : List Ev → Prop} (h0 : P [])
    (h1 : ∀ t1 t2, Run (.code r1) t1 → P t2 → P (t1 ++ t2)) (h2 : ∀ t1 t2, Run (.code r2) t1 → P t2 → P (t1 ++ t2))
    {t : List Ev} (h : Run (.regions r1 r2) t) : P t := by
  generalize hT : Task.regions r1 r2 = T at h
  induction h with
  | stop => exact h0
  | first ha _ _ ih => cases hT; exact h1 _ _ ha (ih rfl)
  | second ha _ _ ih => cases hT; exact h2 _ _ ha (ih rfl)
  | _ => cases hT

/-- The initialisation in front of a call, if any. -/
def pre (done : Bool) : List Ev := if done then [] else [.init]

/-- What is run before an operation. -/
def head (o : Opts) (done : Bool) (i : Info) : List Ev := if wantsBefore o i then pre done ++ [.before i] else []

/-- What is run after an operation. -/
def foot (o : Opts) (done : Bool) (i : Info) : List Ev :=
  if wantsAfter o i then pre (done || wantsBefore o i) ++ [.after i] else []

/-- The state at the regions of an operation. -/
def inside (o : Opts) (done : Bool) (i : Info) : Bool := done || wantsBefore o i || wantsAfter o i

theorem run_op {o : Opts} {done : Bool} {i : Info} {r1 r2 rest : Code} {t : List Ev} :
    Run (.code (instrument o done (.op i r1 r2 rest)).1) t ↔
    ∃ tb t2, t = head o done i ++ .start i :: tb ++ .finish i :: (foot o done i ++ t2) ∧
      Run (.regions (instrument o (inside o done i) r1).1
        (instrument o (instrument o (inside o done i) r1).2 r2).1) tb ∧
      Run (.code (instrument o (instrument o (instrument o (inside o done i) r1).2 r2).2 rest).1) t2 := by
  have hb : ∀ {d : Bool} {c : Code} {t}, Run (.code (emit d (.before i) c)) t ↔
      ∃ t', t = pre d ++ .before i :: t' ∧ Run (.code c) t' := by
    intro d c t
    cases d
    · constructor
      · intro h
        cases h with
        | init h => cases h with
          | before h => exact ⟨_, rfl, h⟩
      · rintro ⟨t', rfl, h⟩
        exact .init (.before h)
    · constructor
      · intro h
        cases h with
        | before h => exact ⟨_, rfl, h⟩
      · rintro ⟨t', rfl, h⟩
        exact .before h
  have ha : ∀ {d : Bool} {c : Code} {t}, Run (.code (emit d (.after i) c)) t ↔
      ∃ t', t = pre d ++ .after i :: t' ∧ Run (.code c) t' := by
    intro d c t
    cases d
    · constructor
      · intro h
        cases h with
        | init h => cases h with
          | after h => exact ⟨_, rfl, h⟩
      · rintro ⟨t', rfl, h⟩
        exact .init (.after h)
    · constructor
      · intro h
        cases h with
        | after h => exact ⟨_, rfl, h⟩
      · rintro ⟨t', rfl, h⟩
        exact .after h
  have ho : ∀ {a b c : Code} {t}, Run (.code (.op i a b c)) t ↔
      ∃ tb t2, t = .start i :: tb ++ .finish i :: t2 ∧ Run (.regions a b) tb ∧ Run (.code c) t2 := by
    intro a b c t
    constructor
    · intro h
      cases h with
      | op h1 h2 => exact ⟨_, _, rfl, h1, h2⟩
    · rintro ⟨tb, t2, rfl, h1, h2⟩
      exact .op h1 h2
  simp only [instrument, head, foot, inside]
  cases hB : wantsBefore o i <;> cases hA : wantsAfter o i <;>
    simp only [hb, ha, ho, Bool.false_eq_true, if_false, if_true, Bool.or_false, Bool.or_true, List.nil_append]
  · constructor
    · rintro ⟨tb, t2, rfl, h1, t3, rfl, h2⟩
      exact ⟨tb, t3, by simp, h1, h2⟩
    · rintro ⟨tb, t3, rfl, h1, h2⟩
      exact ⟨tb, _, rfl, h1, t3, by simp, h2⟩
  · constructor
    · rintro ⟨t', rfl, tb, t2, rfl, h1, h2⟩
      exact ⟨tb, t2, by simp, h1, h2⟩
    · rintro ⟨tb, t3, rfl, h1, h2⟩
      exact ⟨_, by simp, tb, t3, rfl, h1, h2⟩
  · constructor
    · rintro ⟨t', rfl, tb, t2, rfl, h1, t3, rfl, h2⟩
      exact ⟨tb, t3, by simp, h1, h2⟩
    · rintro ⟨tb, t3, rfl, h1, h2⟩
      exact ⟨.start i :: tb ++ .finish i :: (pre true ++ .after i :: t3), by simp, tb, _, rfl, h1, t3, rfl, h2⟩

/-- A run with its calls, without initialisations, is the run of the program with the calls that it should have. -/
def Right (o : Opts) (t : List Ev) : Prop := t.filter (fun e => !decide (e = .init)) = (t.filter Ev.own).flatMap (marked o)

theorem Right.append {o : Opts} {a b : List Ev} (ha : Right o a) (hb : Right o b) : Right o (a ++ b) := by
  simp only [Right, List.filter_append, List.flatMap_append] at *
  rw [ha, hb]

theorem right_head (o : Opts) (done : Bool) (i : Info) : Right o (head o done i ++ [.start i]) := by
  obtain ⟨op, node, en, last⟩ := i
  obtain ⟨b, a⟩ := o
  simp only [Right, head, pre, wantsBefore]
  cases done <;> cases en <;> cases b <;> simp [List.filter_cons, Ev.own, marked]

theorem right_foot (o : Opts) (done : Bool) (i : Info) : Right o (.finish i :: foot o done i) := by
  obtain ⟨op, node, en, last⟩ := i
  obtain ⟨b, a⟩ := o
  simp only [Right, foot, pre, wantsBefore, wantsAfter]
  cases done <;> cases en <;> cases b <;> cases a <;> cases last <;> simp [List.filter_cons, Ev.own, marked]

/-- The calls are where they should be. -/
theorem instrument_right (o : Opts) : ∀ (c : Code), Plain c → ∀ (done : Bool) (t : List Ev),
    Run (.code (instrument o done c).1) t → Right o t
  | .nil, _, done, t, h => by
    simp only [instrument] at h
    cases h
    rfl
  | .op i r1 r2 rest, hp, done, t, h => by
    obtain ⟨tb, t2, rfl, h1, h2⟩ := run_op.1 h
    have hb : Right o tb := regions_induct (P := Right o) rfl
      (fun a b ha hb => (instrument_right o r1 hp.1 _ a ha).append hb)
      (fun a b ha hb => (instrument_right o r2 hp.2.1 _ a ha).append hb) h1
    have hr := instrument_right o rest hp.2.2 _ t2 h2
    have := ((right_head o done i).append hb).append ((right_foot o done i).append hr)
    simpa [List.append_assoc] using this

theorem own_head (o : Opts) (done : Bool) (i : Info) : (head o done i).filter Ev.own = [] := by
  simp only [head, pre]; split_ifs <;> simp [Ev.own]

theorem own_foot (o : Opts) (done : Bool) (i : Info) : (foot o done i).filter Ev.own = [] := by
  simp only [foot, pre]; split_ifs <;> simp [Ev.own]

/-- Without its calls, a run of the instrumented program is a run of the program. -/
theorem instrument_sound (o : Opts) : ∀ (c : Code), Plain c → ∀ (done : Bool) (t : List Ev),
    Run (.code (instrument o done c).1) t → Run (.code c) (t.filter Ev.own)
  | .nil, _, done, t, h => by
    simp only [instrument] at h
    cases h
    exact .nil
  | .op i r1 r2 rest, hp, done, t, h => by
    obtain ⟨tb, t2, rfl, h1, h2⟩ := run_op.1 h
    have hb : Run (.regions r1 r2) (tb.filter Ev.own) :=
      regions_induct (P := fun t => Run (.regions r1 r2) (t.filter Ev.own)) .stop
        (fun a b ha hb => by
          rw [List.filter_append]
          exact .first (instrument_sound o r1 hp.1 _ a ha) hb)
        (fun a b ha hb => by
          rw [List.filter_append]
          exact .second (instrument_sound o r2 hp.2.1 _ a ha) hb) h1
    have hr := instrument_sound o rest hp.2.2 _ t2 h2
    have := Run.op (i := i) hb hr
    simpa [List.filter_append, List.filter_cons, own_head, own_foot, Ev.own] using this

/-- Every run of the program is a run of the instrumented program, with calls. -/
theorem instrument_complete (o : Opts) : ∀ (c : Code), Plain c → ∀ (done : Bool) (t : List Ev), Run (.code c) t →
    ∃ t', Run (.code (instrument o done c).1) t' ∧ t'.filter Ev.own = t
  | .nil, _, done, t, h => by
    cases h
    exact ⟨[], by simp only [instrument]; exact .nil, rfl⟩
  | .op i r1 r2 rest, hp, done, t, h => by
    cases h with
    | op h1 h2 =>
      rename_i tb t2
      obtain ⟨tb', hb, hbe⟩ : ∃ tb', Run (.regions (instrument o (inside o done i) r1).1
          (instrument o (instrument o (inside o done i) r1).2 r2).1) tb' ∧ tb'.filter Ev.own = tb :=
        regions_induct (P := fun t => ∃ tb', Run (.regions (instrument o (inside o done i) r1).1
            (instrument o (instrument o (inside o done i) r1).2 r2).1) tb' ∧ tb'.filter Ev.own = t)
          ⟨[], .stop, rfl⟩
          (fun a b ha ⟨b', hb, hbe⟩ => by
            obtain ⟨a', ha', hae⟩ := instrument_complete o r1 hp.1 (inside o done i) a ha
            exact ⟨a' ++ b', .first ha' hb, by rw [List.filter_append, hae, hbe]⟩)
          (fun a b ha ⟨b', hb, hbe⟩ => by
            obtain ⟨a', ha', hae⟩ := instrument_complete o r2 hp.2.1 (instrument o (inside o done i) r1).2 a ha
            exact ⟨a' ++ b', .second ha' hb, by rw [List.filter_append, hae, hbe]⟩) h1
      obtain ⟨t2', h2', h2e⟩ := instrument_complete o rest hp.2.2
        (instrument o (instrument o (inside o done i) r1).2 r2).2 t2 h2
      refine ⟨_, run_op.2 ⟨tb', t2', rfl, hb, h2'⟩, ?_⟩
      simp [List.filter_append, List.filter_cons, own_head, own_foot, Ev.own, hbe, h2e]

/-! ### Initialisation -/

theorem instrument_true (o : Opts) : ∀ c, Plain c → (instrument o true c).2 = true
  | .nil, _ => rfl
  | .op i r1 r2 rest, hp => by
    simp only [instrument, Bool.true_or]
    rw [instrument_true o r1 hp.1, instrument_true o r2 hp.2.1, instrument_true o rest hp.2.2]

theorem no_init (o : Opts) : ∀ (c : Code), Plain c → ∀ t, Run (.code (instrument o true c).1) t → .init ∉ t
  | .nil, _, t, h => by
    simp only [instrument] at h
    cases h
    simp
  | .op i r1 r2 rest, hp, t, h => by
    obtain ⟨tb, t2, rfl, h1, h2⟩ := run_op.1 h
    simp only [inside, Bool.true_or] at h1 h2
    rw [instrument_true o r1 hp.1] at h1 h2
    rw [instrument_true o r2 hp.2.1] at h2
    have hb : Ev.init ∉ tb := regions_induct (P := fun t => Ev.init ∉ t) (by simp)
      (fun a b ha hb => by
        rw [List.mem_append, not_or]; exact ⟨no_init o r1 hp.1 a ha, hb⟩)
      (fun a b ha hb => by
        rw [List.mem_append, not_or]; exact ⟨no_init o r2 hp.2.1 a ha, hb⟩) h1
    have hr := no_init o rest hp.2.2 t2 h2
    simp only [head, foot, pre, Bool.true_or, if_true, List.nil_append]
    split_ifs <;> simp [hb, hr]

theorem quiet_same (o : Opts) : ∀ (c : Code), Quiet o c → ∀ done, instrument o done c = (c, done)
  | .nil, _, _ => rfl
  | .op i r1 r2 rest, h, done => by
    simp only [instrument, h.1, h.2.1, Bool.or_false, quiet_same o r1 h.2.2.1, quiet_same o r2 h.2.2.2.1,
      quiet_same o rest h.2.2.2.2, Bool.false_eq_true, if_false]

theorem quiet_silent (o : Opts) : ∀ (c : Code), Quiet o c → ∀ t, Run (.code c) t → Silent t
  | .nil, _, t, h => by cases h; simp [Silent]
  | .op i r1 r2 rest, hq, t, h => by
    cases h with
    | op h1 h2 =>
      have hb : Silent _ := regions_induct (P := Silent) (by simp [Silent])
        (fun a b ha hb => by
          intro e he
          rcases List.mem_append.1 he with he | he
          · exact quiet_silent o r1 hq.2.2.1 a ha e he
          · exact hb e he)
        (fun a b ha hb => by
          intro e he
          rcases List.mem_append.1 he with he | he
          · exact quiet_silent o r2 hq.2.2.2.1 a ha e he
          · exact hb e he) h1
      have hr := quiet_silent o rest hq.2.2.2.2 _ h2
      intro e he
      simp only [List.cons_append, List.mem_cons, List.mem_append] at he
      rcases he with rfl | he | rfl | he
      · rfl
      · exact hb e he
      · rfl
      · exact hr e he

theorem quiet_regions {o : Opts} {r1 r2 : Code} (h1 : Quiet o r1) (h2 : Quiet o r2) {t : List Ev}
    (h : Run (.regions r1 r2) t) : Silent t :=
  regions_induct (P := Silent) (by simp [Silent])
    (fun a b ha hb => by
      intro e he
      rcases List.mem_append.1 he with he | he
      · exact quiet_silent o r1 h1 a ha e he
      · exact hb e he)
    (fun a b ha hb => by
      intro e he
      rcases List.mem_append.1 he with he | he
      · exact quiet_silent o r2 h2 a ha e he
      · exact hb e he) h

theorem init_first (o : Opts) : ∀ (c : Code), Plain c → FirstOutside o c → ∀ t,
    Run (.code (instrument o false c).1) t → Silent t ∨ InitFirst t
  | .nil, _, _, t, h => by
    simp only [instrument] at h
    cases h
    exact Or.inl (by simp [Silent])
  | .op i r1 r2 rest, hp, hf, t, h => by
    obtain ⟨tb, t2, rfl, h1, h2⟩ := run_op.1 h
    rw [FirstOutside] at hf
    split_ifs at hf with hB hA
    · -- a call before the operation
      refine Or.inr ⟨[], .before i :: .start i :: (tb ++ .finish i :: (foot o false i ++ t2)),
        by simp [head, hB, pre], by simp, ?_⟩
      simp only [inside, hB, Bool.false_or, Bool.true_or] at h1 h2
      rw [instrument_true o r1 hp.1] at h1 h2
      rw [instrument_true o r2 hp.2.1] at h2
      have hb : Ev.init ∉ tb := regions_induct (P := fun t => Ev.init ∉ t) (by simp)
        (fun a b ha hb => by
          rw [List.mem_append, not_or]; exact ⟨no_init o r1 hp.1 a ha, hb⟩)
        (fun a b ha hb => by
          rw [List.mem_append, not_or]; exact ⟨no_init o r2 hp.2.1 a ha, hb⟩) h1
      have hr := no_init o rest hp.2.2 t2 h2
      simp only [foot, hB, pre, Bool.or_true, if_true]
      split_ifs <;> simp [hb, hr]
    · -- a call after the operation only
      have hB' : wantsBefore o i = false := by simpa using hB
      simp only [inside, hB', hA, Bool.or_true] at h1 h2
      rw [quiet_same o r1 hf.1, quiet_same o r2 hf.2] at h1
      rw [quiet_same o r1 hf.1, quiet_same o r2 hf.2] at h2
      have hb := quiet_regions hf.1 hf.2 h1
      have hr := no_init o rest hp.2.2 t2 h2
      refine Or.inr ⟨.start i :: tb ++ [.finish i], .after i :: t2, ?_, ?_, by simp [hr]⟩
      · simp [head, foot, hB', hA, pre]
      · intro e he
        simp only [List.cons_append, List.mem_cons, List.mem_append, List.not_mem_nil, or_false] at he
        rcases he with rfl | he | rfl
        · rfl
        · exact hb e he
        · rfl
    · have hB' : wantsBefore o i = false := by simpa using hB
      have hA' : wantsAfter o i = false := by simpa using hA
      simp only [inside, hB', hA', Bool.or_false] at h1 h2
      rw [quiet_same o r1 hf.1, quiet_same o r2 hf.2.1] at h1
      rw [quiet_same o r1 hf.1, quiet_same o r2 hf.2.1] at h2
      have hb := quiet_regions hf.1 hf.2.1 h1
      have hsil : ∀ e ∈ Ev.start i :: tb ++ [Ev.finish i], e.own = true := by
        intro e he
        simp only [List.cons_append, List.mem_cons, List.mem_append, List.not_mem_nil, or_false] at he
        rcases he with rfl | he | rfl
        · rfl
        · exact hb e he
        · rfl
      have heq : head o false i ++ .start i :: tb ++ .finish i :: (foot o false i ++ t2) =
          (.start i :: tb ++ [.finish i]) ++ t2 := by simp [head, foot, hB', hA']
      rw [heq]
      rcases init_first o rest hp.2.2 hf.2.2 t2 h2 with hr | ⟨a, b, rfl, h3, h4⟩
      · refine Or.inl ?_
        intro e he
        rcases List.mem_append.1 he with he | he
        · exact hsil e he
        · exact hr e he
      · refine Or.inr ⟨(.start i :: tb ++ [.finish i]) ++ a, b, by simp, ?_, h4⟩
        intro e he
        rcases List.mem_append.1 he with he | he
        · exact hsil e he
        · exact h3 e he

end Verif.Instrument
