import Verif.Recompose.Search
import Verif.Recompose.ConvConcat

/-! # Combining convolutions keeps what a function computes -/

namespace Verif.Recompose

open Verif.Rewrite

variable {V : Type} [Inhabited V] {A : Alg V}

omit [Inhabited V] in
theorem mem_candidates {g : Graph V} (hn : (g.nodes.map Prod.fst).Nodup) {uses : ℕ → List (Option ℕ)}
    (hu : ∀ v, (uses v).Perm (usesOf g v)) {v : ℕ} {p : ℕ × ConvOp} :
    p ∈ candidates g (uses v) ↔ (p.1, GOp.conv p.2) ∈ g.nodes ∧ v ∈ (GOp.conv (V := V) p.2).args := by
  unfold candidates
  rw [List.mem_filterMap]
  constructor
  · rintro ⟨u, h1, h2⟩
    rw [Option.bind_eq_some_iff] at h2
    obtain ⟨n, rfl, h2⟩ := h2
    rw [Option.map_eq_some_iff] at h2
    obtain ⟨c, h2, rfl⟩ := h2
    rw [convOf_iff hn] at h2
    obtain ⟨op, h3, h4⟩ := some_mem_usesOf.1 ((hu v).mem_iff.1 h1)
    have : (n, op) = (n, GOp.conv c) := List.inj_on_of_nodup_map hn h3 h2 rfl
    cases this
    exact ⟨h2, h4⟩
  · rintro ⟨h1, h2⟩
    refine ⟨some p.1, (hu v).mem_iff.2 (some_mem_usesOf.2 ⟨_, h1, h2⟩), ?_⟩
    rw [Option.bind_some, (convOf_iff hn).2 h1]
    rfl

omit [Inhabited V] in
theorem users_eq {g : Graph V} : ∀ {users : List (Option ℕ)}, (candidates g users).length = users.length →
    users = (candidates g users).map fun p => some p.1 := by
  intro users
  induction users with
  | nil => intro _; rfl
  | cons u us ih =>
    intro h
    have hle : ∀ us : List (Option ℕ), (candidates g us).length ≤ us.length := fun us =>
      List.length_filterMap_le _ _
    unfold candidates at h ⊢
    rw [List.filterMap_cons] at h ⊢
    split at h
    · have := hle us
      unfold candidates at this
      rw [List.length_cons] at h
      omega
    · rename_i p hp
      rw [List.length_cons, List.length_cons, Nat.add_right_cancel_iff] at h
      rw [List.map_cons]
      congr 1
      · rw [Option.bind_eq_some_iff] at hp
        obtain ⟨n, rfl, hp⟩ := hp
        rw [Option.map_eq_some_iff] at hp
        obtain ⟨c, -, rfl⟩ := hp
        rfl
      · exact ih h

omit [Inhabited V] in
theorem scanUsers_some {g : Graph V} (hn : (g.nodes.map Prod.fst).Nodup) : ∀ {us : List (Option ℕ)}
    {cc : Option (ℕ × ℤ)} {r : Option (ℕ × ℤ)}, scanUsers g cc us = some r →
    (us = [] ∧ r = cc) ∨ (us ≠ [] ∧ ∃ k, r = some k ∧ (∀ c, cc = some c → c = k) ∧ ∀ u ∈ us, u = some k.1 ∧
      ((cc = none) → ∃ l, (k.1, GOp.concat k.2 l) ∈ g.nodes)) := by
  intro us
  induction us with
  | nil => intro cc r h; cases h; exact .inl ⟨rfl, rfl⟩
  | cons u us ih =>
    intro cc r h
    refine .inr ⟨by simp, ?_⟩
    rw [scanUsers] at h
    split at h
    · cases h
    · rename_i k hk
      obtain ⟨k, axis⟩ := k
      split at h
      · rename_i he
        obtain ⟨hu, hl⟩ := concatOf_some hn hk
        have hkey : ∃ k', r = some k' ∧ cc.getD (k, axis) = k' ∧ ∀ u ∈ us, u = some k'.1 := by
          rcases ih h with ⟨rfl, hr⟩ | ⟨-, k', h1, h2, h3⟩
          · exact ⟨_, hr, rfl, by intro u hu; cases hu⟩
          · exact ⟨k', h1, h2 _ rfl, fun u hu => (h3 u hu).1⟩
        obtain ⟨k', h1, h2, h3⟩ := hkey
        refine ⟨k', h1, ?_, ?_⟩
        · rintro c rfl
          exact h2
        · intro v hv
          refine ⟨?_, ?_⟩
          · rcases List.mem_cons.1 hv with rfl | hv
            · rw [hu, ← h2]
              exact congrArg some he.symm
            · exact h3 v hv
          · rintro rfl
            rw [← h2]
            exact hl
      · cases h

omit [Inhabited V] in
theorem commonConcat_some {g : Graph V} (hn : (g.nodes.map Prod.fst).Nodup) {uses : ℕ → List (Option ℕ)} :
    ∀ {cs : List ℕ} {cc : Option (ℕ × ℤ)} {k : ℕ × ℤ}, commonConcat g uses cc cs = some k →
    (∀ c, cc = some c → c = k) ∧ (∀ c ∈ cs, uses c ≠ [] ∧ ∀ u ∈ uses c, u = some k.1) ∧
    (cc = none → cs ≠ [] → ∃ l, (k.1, GOp.concat k.2 l) ∈ g.nodes) := by
  intro cs
  induction cs with
  | nil =>
    intro cc k h
    refine ⟨?_, (by intro c hc; cases hc), fun _ h => absurd rfl h⟩
    rintro c rfl
    exact Option.some.inj h
  | cons c cs ih =>
    intro cc k h
    rw [commonConcat] at h
    split at h
    · cases h
    · rename_i hne
      split at h
      · cases h
      · rename_i cc' hs
        obtain ⟨h1, h2, h3⟩ := ih h
        rcases scanUsers_some hn hs with ⟨h4, -⟩ | ⟨-, k', rfl, h5, h6⟩
        · exact absurd h4 hne
        · have hk := h1 k' rfl
          subst hk
          refine ⟨h5, ?_, ?_⟩
          · intro d hd
            rcases List.mem_cons.1 hd with rfl | hd
            · exact ⟨hne, fun u hu => (h6 u hu).1⟩
            · exact h2 d hd
          · intro hcc _
            obtain ⟨u, hu⟩ := List.exists_mem_of_ne_nil _ hne
            exact (h6 u hu).2 hcc

/-! ### The values of the new operations -/

theorem run_rewritten {g : Graph V} {k : ℕ} {new : List (ℕ × GOp V)} {gone : List ℕ} {σ : ℕ → ℕ} {ρ : ℕ → Tensor V}
    (hσ : ∀ a, ρ (σ a) = ρ a) (hold : Run A g.nodes ρ) (hnew : Run A new ρ) :
    Run A (rewritten g k new gone σ).nodes ρ := by
  intro p hp
  obtain ⟨q, hq, rfl⟩ := List.mem_map.1 hp
  have hq := (List.mem_filter.1 hq).1
  have hc : ρ ∘ σ = ρ := funext hσ
  dsimp only
  rw [subst_eval, hc]
  simp only [insertAfter, List.mem_append] at hq
  rcases hq with (hq | hq) | hq
  · exact hold q (List.mem_of_mem_take hq)
  · exact hnew q hq
  · exact hold q (List.mem_of_mem_drop hq)

/-- What the pattern finds. -/
structure Found (args : List ℕ) (uses : ℕ → List (Option ℕ)) (ty : ℕ → Option (List ℕ)) (fresh : ℕ) (g : Graph V)
    (root : ℕ) (c1 : ConvOp) : Prop where
  wf : g.WF args
  perm : ∀ v, (uses v).Perm (usesOf g v)
  fresh : ∀ n, n ∈ args ∨ n ∈ g.nodes.map Prod.fst → n < fresh
  ceil : ∀ n c, (n, GOp.conv c) ∈ g.nodes → c.at_.ceil = false
  isRoot : (root, GOp.conv c1) ∈ g.nodes
  only : ∀ n c, (n, GOp.conv c) ∈ g.nodes → c1.x ≠ c.w ∧ c.b ≠ some c1.x
  ok : matches_ g uses ty root c1 (candidates g (uses c1.x)) = true

namespace Found

variable {args : List ℕ} {uses : ℕ → List (Option ℕ)} {ty : ℕ → Option (List ℕ)} {fresh : ℕ} {g : Graph V}
  {root : ℕ} {c1 : ConvOp} (F : Found args uses ty fresh g root c1)
include F

omit [Inhabited V] in
theorem nodup : (g.nodes.map Prod.fst).Nodup := (ordered_iff.1 F.wf.1).1

omit [Inhabited V] in
theorem mem {p : ℕ × ConvOp} : p ∈ candidates g (uses c1.x) ↔
    (p.1, GOp.conv p.2) ∈ g.nodes ∧ c1.x ∈ (GOp.conv (V := V) p.2).args := mem_candidates F.nodup F.perm

omit [Inhabited V] in
theorem x_eq {p : ℕ × ConvOp} (hp : p ∈ candidates g (uses c1.x)) : p.2.x = c1.x := by
  obtain ⟨h1, h2⟩ := F.mem.1 hp
  obtain ⟨h3, h4⟩ := F.only _ _ h1
  simp only [GOp.args, List.mem_cons, Option.mem_toList] at h2
  rcases h2 with h2 | h2 | h2
  · exact h2.symm
  · exact absurd h2 h3
  · exact absurd h2 h4

omit [Inhabited V] in
theorem root_mem : (root, c1) ∈ candidates g (uses c1.x) := F.mem.2 ⟨F.isRoot, by simp [GOp.args]⟩

omit [Inhabited V] in
theorem compat {p q : ℕ × ConvOp} (hp : p ∈ candidates g (uses c1.x)) (hq : q ∈ candidates g (uses c1.x)) :
    p.2.at_ = q.2.at_ ∧ ty p.2.w = ty q.2.w ∧ p.2.b.isSome = q.2.b.isSome := by
  have h := F.ok
  simp only [matches_, Bool.and_eq_true] at h
  have hall := h.1.1.1.2
  rw [List.all_eq_true] at hall
  obtain ⟨r, hr⟩ : ∃ r, (candidates g (uses c1.x)).head? = some r := by
    cases hc : candidates g (uses c1.x) with
    | nil => rw [hc] at hp; cases hp
    | cons a l => exact ⟨a, rfl⟩
  have hrm : r ∈ candidates g (uses c1.x) := List.mem_of_mem_head? (by rw [hr]; rfl)
  have key : ∀ s ∈ candidates g (uses c1.x), r.2.at_ = s.2.at_ ∧ ty r.2.w = ty s.2.w ∧ r.2.b.isSome = s.2.b.isSome := by
    intro s hs
    have h1 := hall s hs
    rw [hr, Option.all_some] at h1
    simp only [areCompatible, Bool.and_eq_true, decide_eq_true_eq] at h1
    obtain ⟨⟨⟨⟨⟨⟨⟨⟨e1, e2⟩, e3⟩, e4⟩, e5⟩, e6⟩, e7⟩, e8⟩, -⟩ := h1
    have c1' := F.ceil _ _ (F.mem.1 hrm).1
    have c2' := F.ceil _ _ (F.mem.1 hs).1
    refine ⟨?_, e7, by simpa using e8⟩
    have ext : ∀ {a b : WinAttrs}, a.autoPad = b.autoPad → a.dilations = b.dilations → a.group = b.group →
        a.kernel = b.kernel → a.pads = b.pads → a.strides = b.strides → a.ceil = b.ceil → a = b := by
      rintro ⟨⟩ ⟨⟩ rfl rfl rfl rfl rfl rfl rfl
      rfl
    exact ext e1 e2 e3 e4 e5 e6 (c1'.trans c2'.symm)
  have hp' := key p hp
  have hq' := key q hq
  exact ⟨hp'.1.symm.trans hq'.1, hp'.2.1.symm.trans hq'.2.1, hp'.2.2.symm.trans hq'.2.2⟩

omit [Inhabited V] in
theorem static {p : ℕ × ConvOp} (hp : p ∈ candidates g (uses c1.x)) :
    (ty p.2.w).isSome = true ∧ (ty p.1).isSome = true := by
  have h := F.ok
  simp only [matches_, Bool.and_eq_true] at h
  have hall := h.1.2
  rw [List.all_eq_true] at hall
  simpa using hall p hp

omit [Inhabited V] in
theorem users : uses c1.x = (candidates g (uses c1.x)).map fun p => some p.1 := by
  have h := F.ok
  simp only [matches_, Bool.and_eq_true, decide_eq_true_eq] at h
  exact users_eq h.1.1.2

omit [Inhabited V] in
theorem names {n : ℕ} (hn : n ∈ (candidates g (uses c1.x)).map Prod.fst) : n ∈ g.nodes.map Prod.fst := by
  obtain ⟨p, hp, rfl⟩ := List.mem_map.1 hn
  exact List.mem_map_of_mem (f := Prod.fst) (F.mem.1 hp).1

omit [Inhabited V] in
theorem parallel {c c' : ℕ} (hc : c ∈ (candidates g (uses c1.x)).map Prod.fst)
    (hc' : c' ∈ (candidates g (uses c1.x)).map Prod.fst) : ¬ Dep g c c' := by
  have h := F.ok
  simp only [matches_, Bool.and_eq_true] at h
  have hall := h.2
  rw [List.all_eq_true] at hall
  obtain ⟨p, hp, rfl⟩ := List.mem_map.1 hc
  have h1 := hall p hp
  simp only [decide_eq_true_eq] at h1
  rcases reachable_spec F.wf.1 F.perm hc (fun c hc => F.names hc) with ⟨h2, -⟩ | ⟨-, h2⟩
  · rw [h2] at h1
    cases h1
  · exact h2 c' hc'

omit [Inhabited V] in
theorem args_lt {p : ℕ × GOp V} (hp : p ∈ g.nodes) {a : ℕ} (ha : a ∈ p.2.args) : a < fresh := by
  obtain ⟨h1, -, h3⟩ := ordered_iff.1 F.wf.1
  rcases argsOk_pos h3 h1 p hp a ha with h | h
  · exact F.fresh a (.inl h)
  · exact F.fresh a (.inr h.1)

omit [Inhabited V] in
theorem conv_args {p : ℕ × ConvOp} (hp : p ∈ candidates g (uses c1.x)) :
    p.2.w < fresh ∧ c1.x < fresh ∧ ∀ b, p.2.b = some b → b < fresh := by
  have h := (F.mem.1 hp).1
  refine ⟨F.args_lt h (by simp [GOp.args]), F.args_lt F.isRoot (by simp [GOp.args]), ?_⟩
  intro b hb
  exact F.args_lt h (by simp [GOp.args, hb])

end Found

/-- The values after the rewrite: the new weights, bias and convolution, and the outputs of Split. -/
def newVals (fresh : ℕ) (ns : List ℕ) (ρ : ℕ → Tensor V) (w b y : Tensor V) (n : ℕ) : Tensor V :=
  if n < fresh then ρ n else if n = fresh then w else if n = fresh + 1 then b else if n = fresh + 2 then y
  else ρ (ns.getD (n - (fresh + 3)) 0)

theorem newVals_old {fresh : ℕ} {ns : List ℕ} {ρ : ℕ → Tensor V} {w b y : Tensor V} {n : ℕ} (h : n < fresh) :
    newVals fresh ns ρ w b y n = ρ n := if_pos h

/-- The new values fit the new operations. -/
theorem Found.values {args : List ℕ} {uses : ℕ → List (Option ℕ)} {ty : ℕ → Option (List ℕ)} {fresh : ℕ} {g : Graph V}
    {root : ℕ} {c1 : ConvOp} (F : Found args uses ty fresh g root c1) (hg : c1.at_.group = 1) {ρ : ℕ → Tensor V}
    (hr : Run A g.nodes ρ) (hty : ∀ n s, n ∈ args ∨ n ∈ g.nodes.map Prod.fst → ty n = some s → (ρ n).shape = s) :
    ∃ w b y, concat (((candidates g (uses c1.x)).map Prod.fst).map ρ) 1 = some y ∧
      Run A g.nodes (newVals fresh ((candidates g (uses c1.x)).map Prod.fst) ρ w b y) ∧
      Run A (newNodes fresh c1 (candidates g (uses c1.x)) ++ splitNodes ty fresh (candidates g (uses c1.x)))
        (newVals fresh ((candidates g (uses c1.x)).map Prod.fst) ρ w b y) := by
  set cs := candidates g (uses c1.x) with hcs
  set ns := cs.map Prod.fst with hns
  let part : ℕ × ConvOp → Part V := fun p => ⟨ρ p.2.w, p.2.b.map ρ, ρ p.1⟩
  have hconv : ∀ p ∈ cs, conv A c1.at_ (ρ c1.x) (ρ p.2.w) (p.2.b.map ρ) = some (ρ p.1) := by
    intro p hp
    have h1 := hr _ (F.mem.1 hp).1
    simp only [GOp.eval] at h1
    rw [← F.x_eq hp, ← (F.compat hp F.root_mem).1]
    exact h1
  obtain ⟨n0, k0, xs, m0, cg, ks, ax0, hx0, hw0, -, -, -, -⟩ := conv_some.1 (hconv _ F.root_mem)
  have hargs : ∀ p ∈ cs, p.2.w ∈ args ∨ p.2.w ∈ g.nodes.map Prod.fst := by
    intro p hp
    obtain ⟨h1, -, h3⟩ := ordered_iff.1 F.wf.1
    rcases argsOk_pos h3 h1 _ (F.mem.1 hp).1 p.2.w (by simp [GOp.args]) with h | h
    · exact .inl h
    · exact .inr h.1
  have hws : ∀ p ∈ cs, (ρ p.2.w).shape = m0 :: cg :: ks := by
    intro p hp
    obtain ⟨s, hs⟩ := Option.isSome_iff_exists.1 (F.static hp).1
    have h1 := hty _ _ (hargs p hp) hs
    rw [(F.compat hp F.root_mem).2.1] at hs
    have h2 := hty _ _ (hargs _ F.root_mem) hs
    rw [h1, ← h2, hw0]
  have hpart : ∀ q ∈ cs.map part, IsPart A c1.at_ (ρ c1.x) cg ks q := by
    intro q hq
    obtain ⟨p, hp, rfl⟩ := List.mem_map.1 hq
    exact ⟨hconv p hp, m0, hws p hp⟩
  have hbias : ∀ q ∈ cs.map part, q.b.isSome = c1.b.isSome := by
    intro q hq
    obtain ⟨p, hp, rfl⟩ := List.mem_map.1 hq
    simp only [part, Option.isSome_map]
    exact (F.compat hp F.root_mem).2.2
  have hne : cs ≠ [] := List.ne_nil_of_mem F.root_mem
  obtain ⟨w, y, hw, hy, hbt, hbf⟩ := conv_concat hg (by simpa using hne) hpart hbias
  have hwm : (cs.map part).map Part.w = cs.map fun p => ρ p.2.w := by rw [List.map_map]; rfl
  have hym : (cs.map part).map Part.y = ns.map ρ := by rw [List.map_map, hns, List.map_map]; rfl
  rw [hwm] at hw
  rw [hym] at hy
  have hhead : (cs.head?.bind fun p => p.2.b).isSome = c1.b.isSome := by
    obtain ⟨a, l, hal⟩ : ∃ a l, cs = a :: l := by
      cases hcc : cs with
      | nil => exact absurd hcc hne
      | cons a l => exact ⟨a, l, rfl⟩
    rw [hal, List.head?_cons, Option.bind_some]
    have ha : a ∈ cs := by rw [hal]; simp
    exact (F.compat ha F.root_mem).2.2
  have hsplit : ∀ b, Run A (splitNodes (V := V) ty fresh cs) (newVals fresh ns ρ w b y) := by
    intro b p hp
    obtain ⟨i, hi, rfl⟩ := List.mem_map.1 hp
    rw [List.mem_range] at hi
    have hv : newVals fresh ns ρ w b y (fresh + 2) = y := by
      unfold newVals
      rw [if_neg (by omega), if_neg (by omega), if_neg (by omega), if_pos rfl]
    have hlen : i < ns.length := by rw [hns, List.length_map]; exact hi
    have hv' : newVals fresh ns ρ w b y (fresh + 3 + i) = ρ ns[i] := by
      unfold newVals
      rw [if_neg (by omega), if_neg (by omega), if_neg (by omega), if_neg (by omega), Nat.add_sub_cancel_left,
        List.getD_eq_getElem _ _ hlen]
    simp only [GOp.eval]
    rw [hv, hv']
    obtain ⟨t, us, ax, ht, hnax, -, hyb⟩ := concat_some.1 hy
    have hrank : t.shape.length = y.shape.length := by rw [hyb, build_shape, List.length_set]
    have hax : ax = 1 := by
      have := hnax
      unfold normAxis at this
      split at this
      · simpa using this.symm
      · split at this
        · omega
        · cases this
    subst hax
    refine splitOut_concat hy (by rw [← hrank]; exact hnax) ?_ ?_
    · rw [hns, List.map_map, List.map_map]
      refine List.map_congr_left fun p hp => ?_
      obtain ⟨s, hs⟩ := Option.isSome_iff_exists.1 (F.static hp).2
      have := hty p.1 s (.inr (F.names (List.mem_map_of_mem hp))) hs
      simp only [Function.comp_apply]
      rw [hs, this]
      rfl
    · rw [List.getElem?_map, List.getElem?_eq_getElem hlen]
      rfl
  have hold : ∀ b, Run A g.nodes (newVals fresh ns ρ w b y) := by
    intro b p hp
    rw [eval_congr (ρ' := ρ) (fun a ha => newVals_old (F.args_lt hp ha)),
      newVals_old (F.fresh _ (.inr (List.mem_map_of_mem hp)))]
    exact hr p hp
  have hW : ∀ b, newVals fresh ns ρ w b y fresh = w := by
    intro b
    unfold newVals
    rw [if_neg (by omega), if_pos rfl]
  have hY : ∀ b, newVals fresh ns ρ w b y (fresh + 2) = y := by
    intro b
    unfold newVals
    rw [if_neg (by omega), if_neg (by omega), if_neg (by omega), if_pos rfl]
  have hB : ∀ b, newVals fresh ns ρ w b y (fresh + 1) = b := by
    intro b
    unfold newVals
    rw [if_neg (by omega), if_neg (by omega), if_pos rfl]
  have hwe : ∀ b, (GOp.concat (V := V) 0 (cs.map fun p => p.2.w)).eval A (newVals fresh ns ρ w b y) = some w := by
    intro b
    simp only [GOp.eval]
    rw [← hw, List.map_map]
    congr 1
    exact List.map_congr_left fun p hp => newVals_old (F.conv_args hp).1
  have hX : ∀ b, newVals fresh ns ρ w b y c1.x = ρ c1.x := fun b => newVals_old (F.conv_args F.root_mem).2.1
  rcases hb1 : c1.b.isSome with _ | _
  · refine ⟨w, w, y, hy, hold w, ?_⟩
    intro p hp
    rcases List.mem_append.1 hp with hp | hp
    · simp only [newNodes, hhead, hb1] at hp
      simp only [Bool.false_eq_true, if_false, List.append_nil, List.cons_append, List.nil_append, List.mem_cons,
        List.not_mem_nil, or_false] at hp
      rcases hp with rfl | rfl
      · rw [hwe, hW]
      · simp only [GOp.eval, Option.map_none]
        rw [hX, hW, hY]
        exact hbf hb1
    · exact hsplit w p hp
  · obtain ⟨b, hb, hcb⟩ := hbt hb1
    have hbs : ∀ p ∈ cs, ∃ t, p.2.b = some t := fun p hp =>
      Option.isSome_iff_exists.1 ((F.compat hp F.root_mem).2.2.trans hb1)
    refine ⟨w, b, y, hy, hold b, ?_⟩
    intro p hp
    rcases List.mem_append.1 hp with hp | hp
    · simp only [newNodes, hhead, hb1] at hp
      simp only [if_true, List.cons_append, List.nil_append, List.mem_cons, List.not_mem_nil, or_false] at hp
      rcases hp with rfl | rfl | rfl
      · rw [hwe, hW]
      · simp only [GOp.eval]
        rw [hB, ← hb, List.map_map, List.map_map]
        congr 1
        refine List.map_congr_left fun p hp => ?_
        obtain ⟨t, ht⟩ := hbs p hp
        simp only [Function.comp_apply, part, Part.bias]
        rw [ht]
        exact newVals_old ((F.conv_args hp).2.2 t ht)
      · simp only [GOp.eval, Option.map_some]
        rw [hX, hW, hY, hB]
        exact hcb
    · exact hsplit b p hp

end Verif.Recompose
