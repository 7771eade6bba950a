import Verif.Cse.Lemmas
/-!
# C127: common subexpressions and node names
-/
namespace Verif.Props

open Verif.Cse

/-- C127, values. The effects of a block, and so what it returns, are the same after the pass, whatever
the operations compute, as long as they do not look at node names. `args` are the arguments. -/
theorem C127_effects {V S : Type} (I : Semantics V S) (needs : Nat → Bool) (args : List Nat)
    (ops : List Op) (h : Ssa args ops) (env : Nat → V) (s : S) :
    (I.run (runPass needs I.pureOp ops) env s).2 = (I.run ops env s).2 := by
  unfold runPass
  rw [run_map I _ (restoreName_work needs _)]
  rw [cse_run I _ id [] args (ssa_map _ (removeName_work needs) args ops h) env env s
    (fun v hv => hv) (fun v _ => rfl) (fun v _ => rfl) (fun k hk => by simp at hk)]
  rw [run_map I _ (removeName_work needs)]

/-- C127, names. Every operation after the pass is an operation from before, with its own node name. -/
theorem C127_names (needs pureOp : Nat → Bool) (args : List Nat) (ops : List Op)
    (h : Ssa args ops) (x : Op) (hx : x ∈ runPass needs pureOp ops) :
    ∃ o ∈ ops, x.id = o.id ∧ x.kind = o.kind ∧ x.attrs = o.attrs ∧ x.nodeName = o.nodeName := by
  unfold runPass at hx
  obtain ⟨y, hy, rfl⟩ := List.mem_map.1 hx
  obtain ⟨z, hz, e1, e2, e3, e4⟩ := cse_mem pureOp _ id [] y hy
  obtain ⟨o, ho, rfl⟩ := List.mem_map.1 hz
  obtain ⟨r1, r2, r3, -⟩ := restoreName_work needs (savedNames needs ops) y
  obtain ⟨m1, m2, m3, -⟩ := removeName_work needs o
  refine ⟨o, ho, by rw [r1, e1, m1], by rw [r2, e2, m2], by rw [r3, e3, m3], ?_⟩
  have hkind : y.kind = o.kind := by rw [e2, m2]
  have hid : y.id = o.id := by rw [e1, m1]
  unfold restoreName
  by_cases hn : needs o.kind = true
  · have hl := (lookup_saved needs ops args h o ho hn).1
    rw [hkind, if_pos hn, hid, hl]
    cases hnm : o.nodeName with
    | some n => rfl
    | none =>
      simp only
      rw [e4]
      unfold removeName
      rw [if_pos hn]
  · rw [hkind, if_neg hn, e4]
    unfold removeName
    rw [if_neg hn]

/-- C127, elimination. Node names do not keep operations apart: no two operations are left that compute
the same, if they are without side effects and of a kind whose node names are removed. -/
theorem C127_merged (needs pureOp : Nat → Bool) (ops : List Op) :
    (runPass needs pureOp ops).Pairwise fun a b =>
      pureOp a.kind = true → needs a.kind = true → ¬ SameWork b a := by
  unfold runPass
  rw [List.pairwise_map]
  have hd := (cse_distinct pureOp (ops.map (removeName needs)) id []).2
  have hd2 : (cse pureOp id [] (ops.map (removeName needs))).Pairwise fun a b =>
      (pureOp a.kind = true → ¬ same b a = true) ∧
      (a ∈ cse pureOp id [] (ops.map (removeName needs)) ∧
       b ∈ cse pureOp id [] (ops.map (removeName needs))) :=
    List.Pairwise.imp (fun h => h) (List.Pairwise.and_mem.1 hd |>.imp fun h => ⟨h.2.2, h.1, h.2.1⟩)
  refine hd2.imp ?_
  rintro a b ⟨h1, ha, hb⟩ hp hn hw
  obtain ⟨ra, rk, rt, ro⟩ := restoreName_work needs (savedNames needs ops) a
  obtain ⟨sa, sk, st, so⟩ := restoreName_work needs (savedNames needs ops) b
  obtain ⟨w1, w2, w3⟩ := hw
  rw [rk] at hp hn w1
  rw [sk] at w1
  rw [st, rt] at w2
  rw [so, ro] at w3
  have noName : ∀ c ∈ cse pureOp id [] (ops.map (removeName needs)), needs c.kind = true →
      c.nodeName = none := by
    intro c hc hnc
    obtain ⟨z, hz, e1, e2, e3, e4⟩ := cse_mem pureOp _ id [] c hc
    obtain ⟨o, -, rfl⟩ := List.mem_map.1 hz
    rw [e4]
    have hk : o.kind = c.kind := by rw [e2, (removeName_work needs o).2.1]
    unfold removeName
    rw [if_pos (by rw [hk]; exact hnc)]
  apply h1 hp
  rw [same_iff]
  exact ⟨⟨w1, w2, w3⟩, by rw [noName a ha hn, noName b hb (by rw [w1]; exact hn)]⟩

/-- A block: two operations that differ in their names only, one that uses the second of them, and a
return. -/
def cseExample : List Op :=
  [⟨10, 1, 0, some 100, [0, 1]⟩, ⟨11, 1, 0, some 101, [0, 1]⟩, ⟨12, 2, 0, some 102, [11]⟩,
   ⟨13, 9, 0, none, [12]⟩]

/-- The hypotheses are met, one operation is removed, and the names of the others are kept. -/
example : Ssa [0, 1] cseExample ∧
    runPass (fun k => k != 9) (fun k => k != 9) cseExample =
      [⟨10, 1, 0, some 100, [0, 1]⟩, ⟨12, 2, 0, some 102, [10]⟩, ⟨13, 9, 0, none, [12]⟩] := by
  constructor
  · simp [Ssa, cseExample]
  · decide

end Verif.Props
