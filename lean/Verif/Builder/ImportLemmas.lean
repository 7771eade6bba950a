import Verif.Builder.ImportSpec
import Mathlib.Data.List.Nodup
import Mathlib.Tactic.Linarith

/-!
Lemmas on symbol tables and environments.
-/

namespace Verif.Builder

variable {O L V : Type}

/-! ### Environments -/

theorem bindAll_nil {N X : Type} [DecidableEq N] (env : N → Option X) : bindAll env [] = env := rfl

theorem bindAll_cons {N X : Type} [DecidableEq N] (env : N → Option X) (p : N × X) (l : List (N × X)) :
    bindAll env (p :: l) = bindAll (fun y => if y = p.1 then some p.2 else env y) l := rfl

theorem bindAll_notin {N X : Type} [DecidableEq N] : ∀ (l : List (N × X)) (env : N → Option X) (y : N), y ∉ l.map (·.1) → bindAll env l y = env y
  | [], _, _, _ => rfl
  | p :: l, env, y, h => by
    simp only [List.map_cons, List.mem_cons, not_or] at h
    rw [bindAll_cons, bindAll_notin l _ y h.2, if_neg h.1]

theorem bindAll_mem {N X : Type} [DecidableEq N] : ∀ (l : List (N × X)) (env : N → Option X), (l.map (·.1)).Nodup → ∀ p ∈ l,
    bindAll env l p.1 = some p.2
  | [], _, _, _, h => by simp at h
  | q :: l, env, hn, p, h => by
    simp only [List.map_cons, List.nodup_cons] at hn
    rw [bindAll_cons]
    rcases List.mem_cons.1 h with h | h
    · subst h
      rw [bindAll_notin l _ _ hn.1, if_pos rfl]
    · exact bindAll_mem l _ hn.2 p h

theorem mapM_zip_bind {X : Type} : ∀ (ks : List ℕ) (vs : List X) (env : ℕ → Option X), ks.Nodup → vs.length = ks.length →
    ks.mapM (bindAll env (ks.zip vs)) = some vs := by
  intro ks vs env hn hl
  have hm : (ks.zip vs).map (·.1) = ks := by rw [List.map_fst_zip]; omega
  have key : ∀ p ∈ ks.zip vs, bindAll env (ks.zip vs) p.1 = some p.2 := bindAll_mem _ _ (by rw [hm]; exact hn)
  revert key
  generalize bindAll env (ks.zip vs) = e
  intro key
  clear hm hn env
  induction ks generalizing vs with
  | nil => cases vs with
    | nil => rfl
    | cons => simp at hl
  | cons k ks ih => cases vs with
    | nil => simp at hl
    | cons v vs =>
      rw [List.mapM_cons, key (k, v) (by simp), ih vs (by simpa using hl) fun p hp => key p (by simp [hp])]
      rfl

theorem mapM_congr' {A B : Type} {f g : A → Option B} : ∀ (l : List A), (∀ a ∈ l, f a = g a) → l.mapM f = l.mapM g
  | [], _ => rfl
  | a :: l, h => by
    rw [List.mapM_cons, List.mapM_cons, h a (by simp), mapM_congr' l fun b hb => h b (by simp [hb])]

theorem mapM_append' {A B : Type} {f : A → Option B} {l m : List A} {a b : List B} (h1 : l.mapM f = some a) (h2 : m.mapM f = some b) :
    (l ++ m).mapM f = some (a ++ b) := by
  rw [List.mapM_append, h1, h2]
  rfl

theorem mapM_length {A B : Type} {f : A → Option B} : ∀ (l : List A) (r : List B), l.mapM f = some r → r.length = l.length
  | [], r, h => by
    simp only [List.mapM_nil, Option.pure_def, Option.some.injEq] at h
    subst h
    rfl
  | a :: l, r, h => by
    rw [List.mapM_cons] at h
    obtain ⟨b, _, h⟩ := Option.bind_eq_some_iff.1 h
    obtain ⟨bs, hb, h⟩ := Option.bind_eq_some_iff.1 h
    simp only [Option.pure_def, Option.some.injEq] at h
    subst h
    simp [mapM_length l bs hb]

theorem runOps_append (M : Meaning O L V) : ∀ (a b : List (SOp O L)) (env : SEnv V),
    runOps M env (a ++ b) = (runOps M env a).bind fun e => runOps M e b
  | [], b, env => rfl
  | o :: a, b, env => by
    rw [List.cons_append, runOps, runOps, Option.bind_assoc]
    congr 1
    funext e
    exact runOps_append M a b e

/-- The values below `n` are the same. -/
def Ext (n : ℕ) (e e' : SEnv V) : Prop := ∀ i < n, e' i = e i

theorem Ext.refl (n : ℕ) (e : SEnv V) : Ext n e e := fun _ _ => rfl

theorem Ext.trans {n m : ℕ} {a b c : SEnv V} (h1 : Ext n a b) (h2 : Ext m b c) (h : n ≤ m) : Ext n a c := fun i hi => by
  rw [h2 i (by omega), h1 i hi]

theorem ext_bind {n : ℕ} {e : SEnv V} {l : List (ℕ × Option V)} (h : ∀ p ∈ l, n ≤ p.1) : Ext n e (bindAll e l) := by
  intro i hi
  rw [bindAll_notin]
  intro hm
  obtain ⟨p, hp, e⟩ := List.mem_map.1 hm
  have := h p hp
  omega

theorem mapM_ext {n : ℕ} {e e' : SEnv V} (h : Ext n e e') {l : List ℕ} (hl : ∀ a ∈ l, a < n) : l.mapM e' = l.mapM e :=
  mapM_congr' l fun a ha => h a (hl a ha)

/-- `k` none values. -/
theorem run_nones (M : Meaning O L V) : ∀ (k n : ℕ) (e : SEnv V), ∃ e', runOps M e ((List.range' n k).map (SOp.none (O := O) (L := L))) = some e' ∧
    Ext n e e' ∧ (List.range' n k).mapM e' = some (List.replicate k none)
  | 0, n, e => ⟨e, rfl, Ext.refl n e, rfl⟩
  | k + 1, n, e => by
    obtain ⟨e', h1, h2, h3⟩ := run_nones M k (n + 1) (bindAll e [(n, none)])
    have hb : Ext n e (bindAll e [(n, none)]) := ext_bind (by simp)
    refine ⟨e', ?_, hb.trans h2 (by omega), ?_⟩
    · rw [List.range'_succ, List.map_cons, runOps, runOp, Option.bind_some]
      exact h1
    · rw [List.range'_succ, List.mapM_cons, h2 n (by omega), bindAll_mem _ _ (by simp) (n, none) (by simp), h3]
      rfl

/-! ### Symbol tables -/

theorem scope_get_snoc (s : Scope) (x y : String) (v : ℕ) : Scope.get (s ++ [(x, v)]) y = (s.get y).orElse fun _ => if y = x then some v else none := by
  unfold Scope.get
  rw [List.find?_append]
  cases h : s.find? fun p => p.1 == y with
  | some p => simp
  | none =>
    by_cases hxy : y = x
    · subst hxy
      simp
    · have : (x == y) = false := by simpa using fun e => hxy e.symm
      simp [hxy, this, List.find?_cons]

theorem getByName_add : ∀ (sc sc' : List Scope) (x : String) (v : ℕ), addMapping sc x v = some sc' → ∀ y,
    getByName sc' y = (getByName sc y).orElse fun _ => if y = x then some v else none
  | [], _, _, _, h, _ => by simp [addMapping] at h
  | [s], sc', x, v, h, y => by
    unfold addMapping at h
    split at h
    · simp at h
    · simp only [Option.some.injEq] at h
      subst h
      simp only [getByName, scope_get_snoc]
      cases s.get y with
      | some w => rfl
      | none => by_cases hy : y = x <;> simp [hy]
  | s :: t :: rest, sc', x, v, h, y => by
    unfold addMapping at h
    obtain ⟨r, hr, e⟩ := Option.map_eq_some_iff.1 h
    subst e
    simp only [getByName]
    cases s.get y with
    | some w => rfl
    | none =>
      have := getByName_add (t :: rest) r x v hr y
      simp only [getByName] at this
      exact this

theorem getByName_adds : ∀ (l : List (String × ℕ)) (sc sc' : List Scope), addMappings sc l = some sc' →
    (∀ y, y ∉ l.map (·.1) → getByName sc' y = getByName sc y) ∧
    ((l.map (·.1)).Nodup → ∀ p ∈ l, getByName sc p.1 = none → getByName sc' p.1 = some p.2) ∧
    (∀ y v, getByName sc y = some v → getByName sc' y = some v)
  | [], sc, sc', h => by
    simp only [addMappings, List.foldlM_nil, Option.pure_def, Option.some.injEq] at h
    subst h
    exact ⟨fun _ _ => rfl, by simp, fun _ _ h => h⟩
  | q :: l, sc, sc', h => by
    simp only [addMappings, List.foldlM_cons] at h
    obtain ⟨s1, h1, h2⟩ := Option.bind_eq_some_iff.1 h
    obtain ⟨i1, i2, i3⟩ := getByName_adds l s1 sc' h2
    have ha := getByName_add sc s1 q.1 q.2 h1
    refine ⟨?_, ?_, ?_⟩
    · intro y hy
      simp only [List.map_cons, List.mem_cons, not_or] at hy
      rw [i1 y hy.2, ha, if_neg hy.1]
      cases getByName sc y <;> rfl
    · intro hn p hp hnone
      simp only [List.map_cons, List.nodup_cons] at hn
      rcases List.mem_cons.1 hp with e | hp
      · subst e
        rw [i1 _ hn.1, ha, hnone]
        simp
      · refine i2 hn.2 p hp ?_
        rw [ha, hnone, if_neg]
        · rfl
        · intro e
          exact hn.1 (e ▸ List.mem_map_of_mem hp)
    · intro y v hv
      refine i3 y v ?_
      rw [ha, hv]
      rfl

/-- Bindings of new names succeed. -/
theorem addMapping_ok : ∀ (sc : List Scope) (x : String) (v : ℕ), sc ≠ [] → getByName sc x = none →
    ∃ sc', addMapping sc x v = some sc' ∧ sc'.length = sc.length
  | [], _, _, h, _ => absurd rfl h
  | [s], x, v, _, h => by
    unfold addMapping
    have : s.get x = none := by
      simp only [getByName] at h
      cases hs : s.get x with
      | none => rfl
      | some w => rw [hs] at h; simp at h
    rw [this]
    exact ⟨_, rfl, rfl⟩
  | s :: t :: rest, x, v, _, h => by
    unfold addMapping
    have : getByName (t :: rest) x = none := by
      rw [getByName] at h
      cases hs : s.get x with
      | none => rw [hs] at h; exact h
      | some w => rw [hs] at h; simp at h
    obtain ⟨r, hr, hl⟩ := addMapping_ok (t :: rest) x v (by simp) this
    exact ⟨s :: r, by rw [hr]; rfl, by simp [hl]⟩

theorem addMappings_ok : ∀ (l : List (String × ℕ)) (sc : List Scope), sc ≠ [] → (l.map (·.1)).Nodup → (∀ p ∈ l, getByName sc p.1 = none) →
    ∃ sc', addMappings sc l = some sc' ∧ sc'.length = sc.length
  | [], sc, _, _, _ => ⟨sc, rfl, rfl⟩
  | q :: l, sc, hs, hn, h => by
    obtain ⟨s1, h1, hl1⟩ := addMapping_ok sc q.1 q.2 hs (h q (by simp))
    simp only [List.map_cons, List.nodup_cons] at hn
    have ha := getByName_add sc s1 q.1 q.2 h1
    obtain ⟨s2, h2, hl2⟩ := addMappings_ok l s1 (by intro e; rw [e] at hl1; exact hs (List.length_eq_zero_iff.1 hl1.symm)) hn.2 (by
      intro p hp
      rw [ha, h p (by simp [hp]), if_neg]
      · rfl
      · intro e
        exact hn.1 (e ▸ List.mem_map_of_mem hp))
    refine ⟨s2, ?_, by omega⟩
    simp only [addMappings, List.foldlM_cons]
    rw [h1]
    exact h2

theorem getByName_push : ∀ (sc : List Scope) (x : String), getByName (sc ++ [[]]) x = getByName sc x
  | [], x => rfl
  | s :: sc, x => by
    rw [List.cons_append, getByName, getByName, getByName_push sc x]

theorem names_filter {X : Type} (l : List (String × X)) : (l.filter fun p => p.1 ≠ "").map (·.1) = (l.map (·.1)).filter (· ≠ "") := by
  rw [List.filter_map]
  rfl

/-! ### The relation between names and numbers -/

/-- The names in scope have a number below `n`, with the same value, and no other name has one. -/
structure Rel (scope : List String) (sc : List Scope) (n : ℕ) (env : Env V) (se : SEnv V) : Prop where
  mem : ∀ x, x ≠ "" → x ∈ scope → ∃ i v, getByName sc x = some i ∧ i < n ∧ se i = some v ∧ env x = some v
  out : ∀ x, x ≠ "" → x ∉ scope → getByName sc x = none

theorem Rel.ext {scope : List String} {sc : List Scope} {n m : ℕ} {env : Env V} {se se' : SEnv V} (h : Rel scope sc n env se)
    (he : Ext n se se') (hm : n ≤ m) : Rel scope sc m env se' := by
  refine ⟨fun x hx hm' => ?_, h.out⟩
  obtain ⟨i, v, h1, h2, h3, h4⟩ := h.mem x hx hm'
  exact ⟨i, v, h1, by omega, by rw [he i h2, h3], h4⟩

/-- New names for values. -/
theorem Rel.bind {scope : List String} {sc sc' : List Scope} {n : ℕ} {env : Env V} {se : SEnv V} (h : Rel scope sc n env se)
    (names : List String) (ids : List ℕ) (vs : List (Option V)) (hl1 : ids.length = names.length) (hl2 : vs.length = names.length)
    (hnew : ∀ x ∈ names, x ≠ "" → x ∉ scope) (hnd : (names.filter (· ≠ "")).Nodup) (hlt : ∀ i ∈ ids, i < n) (hv : ids.mapM se = some vs)
    (l : List (String × ℕ)) (hl : l = (names.zip ids).filter (fun p => p.1 ≠ "") ∨ l = names.zip ids)
    (ha : addMappings sc l = some sc') :
    Rel (scope ++ names) sc' n (bindAll env ((names.zip vs).filter fun p => p.1 ≠ "")) se := by
  obtain ⟨g1, g2, g3⟩ := getByName_adds l sc sc' ha
  -- positions
  have hm1 : (((names.zip vs).filter fun p => p.1 ≠ "").map (·.1)) = names.filter (· ≠ "") := by
    rw [names_filter,
      List.map_fst_zip (by omega)]
  have hmem_l : ∀ y, y ≠ "" → (y ∈ l.map (·.1) ↔ y ∈ names) := by
    intro y hy
    rcases hl with e | e
    · rw [e, names_filter,
        List.map_fst_zip (by omega), List.mem_filter]
      simp [hy]
    · rw [e, List.map_fst_zip (by omega)]
  constructor
  · intro x hx hm
    by_cases hxn : x ∈ names
    · have hxs : x ∉ scope := hnew x hxn hx
      obtain ⟨j, hj⟩ := List.mem_iff_getElem?.1 hxn
      have hjl := (List.getElem?_eq_some_iff.1 hj).1
      have hji : j < ids.length := by omega
      have hjv : j < vs.length := by omega
      have hxj : names[j] = x := (List.getElem?_eq_some_iff.1 hj).2
      have hval : se ids[j] = some vs[j] := by
        clear hl ha g1 g2 g3 hmem_l hm1 hnew hnd hlt hj hxj hl1 hl2 hm hxn
        induction ids generalizing vs j with
        | nil => simp at hji
        | cons a ids ih =>
          rw [List.mapM_cons] at hv
          obtain ⟨b, hb, hv⟩ := Option.bind_eq_some_iff.1 hv
          obtain ⟨bs, hbs, hv⟩ := Option.bind_eq_some_iff.1 hv
          simp only [Option.pure_def, Option.some.injEq] at hv
          subst hv
          cases j with
          | zero => simpa using hb
          | succ j => simpa using ih bs hbs j (by omega) (by simpa using hji) (by simpa using hjv)
      have hz1 : (x, ids[j]) ∈ names.zip ids := by
        rw [List.mem_iff_getElem?]
        exact ⟨j, by rw [List.getElem?_zip_eq_some]; exact ⟨hj, List.getElem?_eq_getElem hji⟩⟩
      have hz2 : (x, vs[j]) ∈ names.zip vs := by
        rw [List.mem_iff_getElem?]
        exact ⟨j, by rw [List.getElem?_zip_eq_some]; exact ⟨hj, List.getElem?_eq_getElem hjv⟩⟩
      refine ⟨ids[j], vs[j], ?_, hlt _ (List.getElem_mem _), hval, ?_⟩
      · -- the first binding of the name is the only one
        have hnone : getByName sc x = none := h.out x hx hxs
        rcases hl with e | e
        · refine g2 ?_ (x, ids[j]) ?_ hnone
          · rw [e, names_filter,
              List.map_fst_zip (by omega)]
            exact hnd
          · rw [e, List.mem_filter]
            exact ⟨hz1, by simpa using hx⟩
        · -- with empty names among them
          subst e
          have aux : ∀ (l : List (String × ℕ)) (sc sc' : List Scope), addMappings sc l = some sc' →
              ((l.filter fun p => p.1 ≠ "").map (·.1)).Nodup → ∀ p ∈ l, p.1 ≠ "" → getByName sc p.1 = none → getByName sc' p.1 = some p.2 := by
            intro l
            induction l with
            | nil => intro _ _ _ _ p hp; simp at hp
            | cons q l ih =>
              intro sc sc' hadd hnd p hp hpe hno
              simp only [addMappings, List.foldlM_cons] at hadd
              obtain ⟨s1, e1, e2⟩ := Option.bind_eq_some_iff.1 hadd
              have hb := getByName_add sc s1 q.1 q.2 e1
              by_cases hpq : p.1 = q.1
              · have hq : q.1 ≠ "" := hpq ▸ hpe
                rw [List.filter_cons_of_pos (by simpa using hq), List.map_cons, List.nodup_cons] at hnd
                have hpeq : p = q := by
                  rcases List.mem_cons.1 hp with h | h
                  · exact h
                  · exfalso
                    exact hnd.1 (hpq ▸ List.mem_map_of_mem (List.mem_filter.2 ⟨h, by simpa using hpe⟩))
                subst hpeq
                refine (getByName_adds l s1 sc' e2).2.2 _ _ ?_
                rw [hb, hno]
                simp
              · have hp' : p ∈ l := by
                  rcases List.mem_cons.1 hp with h | h
                  · exact absurd (by rw [h]) hpq
                  · exact h
                refine ih s1 sc' e2 ?_ p hp' hpe ?_
                · by_cases hq : q.1 = ""
                  · rw [List.filter_cons_of_neg (by simpa using hq)] at hnd
                    exact hnd
                  · rw [List.filter_cons_of_pos (by simpa using hq), List.map_cons, List.nodup_cons] at hnd
                    exact hnd.2
                · rw [hb, hno, if_neg hpq]
                  rfl
          refine aux _ sc sc' ha ?_ (x, ids[j]) hz1 hx hnone
          rw [names_filter,
            List.map_fst_zip (by omega)]
          exact hnd
      · exact bindAll_mem _ _ (by rw [hm1]; exact hnd) (x, vs[j]) (List.mem_filter.2 ⟨hz2, by simpa using hx⟩)
    · have hxs : x ∈ scope := by
        rcases List.mem_append.1 hm with h | h
        · exact h
        · exact absurd h hxn
      obtain ⟨i, v, h1, h2, h3, h4⟩ := h.mem x hx hxs
      refine ⟨i, v, ?_, h2, h3, ?_⟩
      · exact g3 x i h1
      · rw [bindAll_notin, h4]
        rw [hm1, List.mem_filter]
        exact fun e => hxn e.1
  · intro x hx hm
    simp only [List.mem_append, not_or] at hm
    rw [g1 x (by rw [hmem_l x hx]; exact hm.2)]
    exact h.out x hx hm.1

end Verif.Builder
