import Verif.LoopTrip.Lemmas
import Verif.LoopTrip.Claim

/-! # What the pattern matches, and the runs of the two loops -/

namespace Verif.LoopTrip

variable {X : Type}

theorem startOf_arg {env : Env X} {l : LoopOp} {k : ℕ} {z : ℤ} (h : startOf env l (.arg k) = some z) :
    2 ≤ k ∧ ∃ s, l.init[k - 2]? = some s ∧ s.eval env = .int z := by
  match k, h with
  | k + 2, h =>
    refine ⟨by omega, ?_⟩
    simp only [startOf] at h
    cases hs : l.init[k]? with
    | none => rw [hs] at h; cases h
    | some s =>
      rw [hs] at h
      simp only [Option.map_some] at h
      cases he : s.eval env with
      | int y =>
        rw [he] at h
        cases h
        exact ⟨s, hs, he⟩
      | bool y => rw [he] at h; cases h
      | other y => rw [he] at h; cases h

/-- A value that keeps what it has in the first iteration. -/
inductive Fixed (l : LoopOp) : Val → Prop
  | const (n : ℕ) (z : ℤ) : Fixed l (.const n z)
  | arg (k : ℕ) (h : l.yields[k - 1]? = some (.arg k)) : Fixed l (.arg k)

theorem fixedValue_some {l : LoopOp} {M : Src} {v : Val} {t : Src} {env : Env X} {z : ℤ}
    (h : fixedValue l M v = some (some t)) (hz : startOf env l v = some z) :
    Fixed l v ∧ t.eval env = .int z := by
  cases v with
  | arg k =>
    obtain ⟨hk, s, hs, he⟩ := startOf_arg hz
    simp only [fixedValue, Val.argNumber, yieldsAt, if_neg (show k ≠ 0 by omega)] at h
    cases hy : l.yields[k - 1]? with
    | none => rw [hy] at h; cases h
    | some y =>
      rw [hy] at h
      simp only [Option.map_some, Option.bind_some] at h
      by_cases hb : y = .arg k
      · rw [if_pos (by simpa using hb)] at h
        refine ⟨.arg k (by rw [hy, hb]), ?_⟩
        have : l.operand M k = l.init[k - 2]? := by
          obtain ⟨j, rfl⟩ : ∃ j, k = j + 2 := ⟨k - 2, by omega⟩
          rfl
        rw [this, hs] at h
        cases h
        exact he
      · rw [if_neg (by simpa using hb)] at h
        cases h
  | const n y =>
    simp only [fixedValue, Val.argNumber] at h
    cases h
    cases hz
    exact ⟨.const n _, rfl⟩
  | outerArg k n => cases hz
  | add a b => cases hz
  | less a b => cases hz
  | other n => cases hz

/-- The value of a fixed expression stays. -/
def Holds (v : Val) (z : ℤ) (s : List (Dat X)) : Prop :=
  match v with
  | .const _ y => y = z
  | .arg k => 2 ≤ k ∧ s[k - 2]? = some (.int z)
  | _ => False

theorem holds_eval {env : Env X} {v : Val} {z : ℤ} {s : List (Dat X)} (h : Holds v z s) (i : ℕ) (c : Bool) :
    v.eval env i c s = .int z := by
  cases v with
  | const n y => cases h; rfl
  | arg k =>
    obtain ⟨hk, hs⟩ := h
    simp only [Val.eval, if_neg (show k ≠ 0 by omega), if_neg (show k ≠ 1 by omega)]
    rw [List.getD_eq_getElem?_getD, hs]
    rfl
  | _ => cases h

theorem holds_start {env : Env X} {l : LoopOp} {v : Val} {z : ℤ} (h : startOf env l v = some z) :
    Holds v z (l.init.map (Src.eval env)) := by
  cases v with
  | const n y => cases h; rfl
  | arg k =>
    obtain ⟨hk, s, hs, he⟩ := startOf_arg h
    exact ⟨hk, by rw [List.getElem?_map, hs]; simp [he]⟩
  | _ => cases h

theorem carried_get {l : LoopOp} {env : Env X} {i : ℕ} {c : Bool} {s : List (Dat X)} {k : ℕ} (hk : 2 ≤ k) {v : Val}
    (hv : l.yields[k - 1]? = some v) (hlen : k - 2 < l.init.length) :
    (l.body env i c s).carried[k - 2]? = some (v.eval env i c s) := by
  simp only [LoopOp.body]
  rw [List.getElem?_take, if_pos hlen, List.getElem?_drop, List.getElem?_map, show 1 + (k - 2) = k - 1 by omega, hv]
  rfl

theorem holds_next {env : Env X} {l : LoopOp} {v : Val} {z : ℤ} {s : List (Dat X)} (hf : Fixed l v)
    (hlen : startOf env l v = some z) (h : Holds v z s) (i : ℕ) (c : Bool) :
    Holds v z (l.body env i c s).carried := by
  cases hf with
  | const n y => exact h
  | arg k hk =>
    obtain ⟨h2, t, ht, -⟩ := startOf_arg hlen
    have := carried_get (env := env) (i := i) (c := c) (s := s) h2 hk (List.getElem?_eq_some_iff.1 ht).1
    exact ⟨h2, by rw [this, holds_eval h]⟩

/-- The number of iterations of a loop that counts. -/
theorem below_iff {lb ub step : ℤ} (hstep : 0 < step) (i : ℕ) :
    lb + ((i : ℤ) + 1) * step < ub ↔ i + 1 < (⌈((ub - lb : ℤ) : ℚ) / step⌉).toNat := by
  have hs : (0 : ℚ) < step := by exact_mod_cast hstep
  have e : (i + 1 < (⌈((ub - lb : ℤ) : ℚ) / step⌉).toNat) ↔ ((i : ℤ) + 1 < ⌈((ub - lb : ℤ) : ℚ) / step⌉) := by omega
  rw [e, Int.lt_ceil, lt_div_iff₀ hs]
  constructor
  · intro h
    have : ((i : ℤ) + 1) * step < ub - lb := by omega
    exact_mod_cast this
  · intro h
    have : ((i : ℤ) + 1) * step < ub - lb := by exact_mod_cast h
    omega

/-- The loop with the smaller trip count and no condition of its own does the same. -/
theorem run_bounded {env : Env X} {l l' : LoopOp} {k : ℕ} {sv uv : Val} {lb ub step : ℤ}
    (hh : l.yields.head? = some (.less (.add (.arg k) sv) uv)) (hk : l.yields[k - 1]? = some (.add (.arg k) sv))
    (hlb : startOf env l (.arg k) = some lb) (hst : startOf env l sv = some step)
    (hub : startOf env l uv = some ub) (hfs : Fixed l sv) (hfu : Fixed l uv)
    (hpos : 0 < step) (hlt : lb < ub) (hw : 1 ≤ env.width) (hlo : -(2 ^ (env.width - 1)) ≤ lb)
    (hhi : ub + step ≤ 2 ^ (env.width - 1))
    (hinit : l'.init = l.init) (hy : l'.yields = .arg 1 :: l.yields.drop 1)
    (f32 : ℚ → ℚ) (hc : l'.cond = l.cond) (t : ℤ)
    (ht : l'.trip.eval f32 env = t)
    (hmin : t = min (l.trip.eval f32 env) ⌈((ub - lb : ℤ) : ℚ) / step⌉) :
    l'.run f32 env = l.run f32 env := by
  obtain ⟨hk2, src, hsrc, -⟩ := startOf_arg hlb
  have hlen := (List.getElem?_eq_some_iff.1 hsrc).1
  have hsq : (0 : ℚ) < step := by exact_mod_cast hpos
  have hN : 0 < ⌈((ub - lb : ℤ) : ℚ) / step⌉ := by
    rw [Int.lt_ceil]
    have : (0 : ℚ) < ((ub - lb : ℤ) : ℚ) := by exact_mod_cast (by omega : 0 < ub - lb)
    simpa using div_pos this hsq
  have body' : ∀ i s, l'.body env i true s = { l.body env i true s with go := true } := by
    intro i s
    cases hyy : l.yields with
    | nil => rw [hyy] at hh; cases hh
    | cons y ys =>
      have e1 : (l'.yields.map (Val.eval env i true s)).drop 1 = (l.yields.map (Val.eval env i true s)).drop 1 := by
        rw [hy, hyy]; simp
      have e2 : (l'.yields.map (Val.eval env i true s)).drop (1 + l.init.length) =
          (l.yields.map (Val.eval env i true s)).drop (1 + l.init.length) := by
        rw [← List.drop_drop, ← List.drop_drop, e1]
      simp only [LoopOp.body, hinit, e1, e2]
      rw [hy]
      simp [Val.eval, Dat.toBool]
  unfold LoopOp.run
  rw [hinit, hc, ht]
  unfold loop
  cases hcond : (l.cond.eval env).toBool with
  | false =>
    have : ∀ (b : ℕ → Bool → List (Dat X) → Yield X) (m i : ℕ) s, iterate b m i false s = (s, []) := by
      intro b m i s
      cases m <;> simp [iterate]
    rw [this, this]
  | true =>
    have e : t.toNat = min (l.trip.eval f32 env).toNat ((⌈((ub - lb : ℤ) : ℚ) / step⌉).toNat - 0) := by
      rw [hmin]; omega
    rw [e]
    have hadd : ∀ (i : ℕ) s, Holds (.arg k) (lb + i * step) s → Holds sv step s →
        i < (⌈((ub - lb : ℤ) : ℚ) / step⌉).toNat →
        (Val.add (.arg k) sv).eval env i true s = .int (lb + ((i : ℤ) + 1) * step) := by
      intro i s h1 h2 hi
      have hcur : lb + (i : ℤ) * step < ub := by
        cases i with
        | zero => simpa using hlt
        | succ j => simpa using (below_iff hpos j).2 hi
      have hnn : 0 ≤ (i : ℤ) * step := mul_nonneg (by omega) hpos.le
      rw [Val.eval, holds_eval h1 i true, holds_eval h2 i true]
      simp only [Dat.toInt]
      have e3 : lb + (i : ℤ) * step + step = lb + ((i : ℤ) + 1) * step := by ring
      rw [wrap_id hw (by omega) (by omega), e3]
    refine iterate_bounded _ _ _
      (fun i s => Holds (.arg k) (lb + i * step) s ∧ Holds sv step s ∧ Holds uv ub s) ?_ ?_ body' _ 0 _ ?_ (by omega)
    · rintro i s ⟨h1, h2, h3⟩ hi
      refine ⟨⟨hk2, ?_⟩, holds_next hfs hst h2 i true, holds_next hfu hub h3 i true⟩
      rw [carried_get hk2 hk hlen, hadd i s h1 h2 hi]
      push_cast
      rfl
    · rintro i s ⟨h1, h2, h3⟩ hi
      have hz : (l.yields.map (Val.eval env i true s)).getD 0 (.bool false) =
          (Val.less (.add (.arg k) sv) uv).eval env i true s := by
        cases hyy : l.yields with
        | nil => rw [hyy] at hh; cases hh
        | cons y ys =>
          rw [hyy] at hh
          cases hh
          rfl
      simp only [LoopOp.body]
      rw [hz, Val.eval, hadd i s h1 h2 hi, holds_eval h3 i true]
      simp only [Dat.toInt, Dat.toBool]
      exact decide_eq_decide.2 (below_iff hpos i)
    · refine ⟨?_, holds_start hst, holds_start hub⟩
      simpa using holds_start hlb

theorem const?_eval {s : Src} {z : ℤ} (h : s.const? = some z) (env : Env X) : s.eval env = .int z := by
  cases s with
  | const n y => cases h; rfl
  | value n => cases h

/-- What a successful match found. -/
theorem rewriteTrip_into {f64 : ℚ → ℚ} {fresh : ℕ} {l l' : LoopOp} (h : rewriteTrip f64 fresh l = .into l') :
    ∃ n mz counter sv uv k st lbs us, l.trip = .src (.const n mz) ∧
      l.yields.head? = some (.less (.add counter sv) uv) ∧ counter.argNumber = some k ∧
      yieldsAt l.yields k (.add counter sv) = some true ∧ fixedValue l (.const n mz) sv = some (some st) ∧
      l.operand (.const n mz) k = some lbs ∧ fixedValue l (.const n mz) uv = some (some us) ∧
      withBounds f64 fresh l (.const n mz) mz lbs us st = .into l' := by
  unfold rewriteTrip at h
  split at h
  · rename_i n mz htrip
    split at h
    · rename_i counter sv uv hh
      split at h
      · cases h
      · rename_i k hk
        split at h
        · cases h
        · cases h
        · rename_i hy
          split at h
          · cases h
          · cases h
          · rename_i st hst
            split at h
            · cases h
            · rename_i lbs hl
              split at h
              · cases h
              · cases h
              · rename_i us hu
                exact ⟨n, mz, counter, sv, uv, k, st, lbs, us, htrip, hh, hk, hy, hst, hl, hu, h⟩
    · cases h
  · cases h

theorem yieldsAt_isSome {l : LoopOp} {k : ℕ} (h1 : 1 ≤ k) (h2 : k < 2 + l.init.length)
    (hy : 1 + l.init.length ≤ l.yields.length) (v : Val) : yieldsAt l.yields k v ≠ none := by
  unfold yieldsAt
  rw [if_neg (by omega), List.getElem?_eq_getElem (by omega)]
  simp

theorem operand_isSome {l : LoopOp} {k : ℕ} (h2 : k < 2 + l.init.length) (M : Src) : l.operand M k ≠ none := by
  unfold LoopOp.operand
  rw [List.getElem?_eq_getElem (by simp; omega)]
  simp

theorem fixedValue_isSome {l : LoopOp} {v : Val} (h : v.Carried l) (hy : 1 + l.init.length ≤ l.yields.length)
    (M : Src) : fixedValue l M v ≠ none := by
  cases v with
  | arg k =>
    obtain ⟨h1, h2⟩ := h
    simp only [fixedValue, Val.argNumber]
    cases hya : yieldsAt l.yields k (.arg k) with
    | none => exact absurd hya (yieldsAt_isSome h1 h2 hy _)
    | some b =>
      cases b with
      | false => simp
      | true =>
        cases ho : l.operand M k with
        | none => exact absurd ho (operand_isSome h2 M)
        | some s => simp [ho]
  | outerArg k n => cases h
  | const n z => simp [fixedValue, Val.argNumber]
  | add a b => simp [fixedValue, Val.argNumber]
  | less a b => simp [fixedValue, Val.argNumber]
  | other n => simp [fixedValue, Val.argNumber]

theorem withBounds_ne_crash (f64 : ℚ → ℚ) (fresh : ℕ) (l : LoopOp) (M : Src) (mz : ℤ) (lb ub step : Src) :
    withBounds f64 fresh l M mz lb ub step ≠ .crash := by
  unfold withBounds
  split
  · split <;> exact fun h => by cases h
  · exact fun h => by cases h

theorem rewriteTrip_ne_crash (f64 : ℚ → ℚ) (fresh : ℕ) {l : LoopOp} (hy : 1 + l.init.length ≤ l.yields.length)
    (h : ∀ c s u, l.yields.head? = some (.less (.add c s) u) → c.Carried l ∧ s.Carried l ∧ u.Carried l) :
    rewriteTrip f64 fresh l ≠ .crash := by
  intro hc
  unfold rewriteTrip at hc
  split at hc
  · split at hc
    · rename_i counter sv uv hh
      obtain ⟨c1, c2, c3⟩ := h _ _ _ hh
      split at hc
      · cases hc
      · rename_i k hk
        obtain ⟨h1, h2⟩ : 1 ≤ k ∧ k < 2 + l.init.length := by
          cases counter with
          | arg j => cases hk; exact c1
          | outerArg j n => cases c1
          | _ => cases hk
        split at hc
        · rename_i hya
          exact yieldsAt_isSome h1 h2 hy _ hya
        · cases hc
        · split at hc
          · rename_i hf
            exact fixedValue_isSome c2 hy _ hf
          · cases hc
          · split at hc
            · rename_i ho
              exact operand_isSome h2 _ ho
            · split at hc
              · rename_i hf
                exact fixedValue_isSome c3 hy _ hf
              · cases hc
              · exact withBounds_ne_crash _ _ _ _ _ _ _ _ hc
    · cases hc
  · cases hc

theorem replaceTrip_unshared {l : LoopOp} {M : Src} (ht : l.trip = .src M) (h : TripUnshared l) (t : Trip) (s : Src) :
    (replaceTrip l M t s).init = l.init ∧ (replaceTrip l M t s).cond = l.cond := by
  obtain ⟨h1, h2⟩ := h M ht
  constructor
  · show (l.init.map fun x => if x = M then s else x) = l.init
    conv_rhs => rw [← List.map_id l.init]
    apply List.map_congr_left
    intro x hx
    rw [if_neg (fun e : x = M => h2 (e ▸ hx))]
    rfl
  · show (if l.cond = M then s else l.cond) = l.cond
    rw [if_neg h1]

/-- The rewrite keeps the results of the loop. `p` is the precision of the division that was done: double for constant
bounds, single otherwise. -/
theorem rewriteTrip_run {f64 f32 : ℚ → ℚ} {p q : ℕ} (h64 : Rounds p f64) (h32 : Rounds q f32) {fresh : ℕ}
    {l l' : LoopOp} (h : rewriteTrip f64 fresh l = .into l') (env : Env X) {lb ub step : ℤ}
    (hcount : Counts env l lb ub step) (hpos : 0 < step) (hlt : lb < ub)
    (hw : 1 ≤ env.width) (hlo : -(2 ^ (env.width - 1)) ≤ lb)
    (hhi : ub + step ≤ 2 ^ (env.width - 1)) (hrange : ub - lb < 2 ^ 63)
    (hp : (∃ s, l'.trip = .src s) ∧ ub - lb < 2 ^ p ∧ step ≤ 2 ^ p ∨ ub - lb < 2 ^ q ∧ step ≤ 2 ^ q ∧ ¬ ∃ s, l'.trip = .src s)
    (hun : TripUnshared l) : l'.run f32 env = l.run f32 env := by
  obtain ⟨n, mz, counter, sv, uv, k, st, lbs, us, htrip, hh, hk, hy, hst, hl, hu, hb⟩ := rewriteTrip_into h
  obtain ⟨k', sv', uv', hh', hlb, hsv, huv⟩ := hcount
  rw [hh] at hh'
  cases hh'
  cases hk
  obtain ⟨hfs, hse⟩ := fixedValue_some hst hsv
  obtain ⟨hfu, hue⟩ := fixedValue_some hu huv
  obtain ⟨hk2, src, hsrc, hle⟩ := startOf_arg hlb
  have hlbs : lbs = src := by
    obtain ⟨j, rfl⟩ : ∃ j, k = j + 2 := ⟨k - 2, by omega⟩
    have : l.operand (.const n mz) (j + 2) = l.init[j]? := rfl
    rw [this] at hl
    have hsrc' : l.init[j]? = some src := hsrc
    rw [hl] at hsrc'
    cases hsrc'
    rfl
  subst hlbs
  have hyk : l.yields[k - 1]? = some (.add (.arg k) sv) := by
    simp only [yieldsAt, if_neg (show k ≠ 0 by omega)] at hy
    cases hyy : l.yields[k - 1]? with
    | none => rw [hyy] at hy; cases hy
    | some y =>
      rw [hyy] at hy
      simp only [Option.map_some, Option.some.injEq, decide_eq_true_eq] at hy
      rw [hy]
  have hwr : wrap 64 (ub - lb) = ub - lb := wrap_id (by omega) (by omega) (by omega)
  have htr : l.trip.eval f32 env = mz := by rw [htrip]; rfl
  have hM := replaceTrip_unshared htrip hun
  unfold withBounds at hb
  split at hb
  · rename_i a b s h1 h2 h3
    have ha : a = lb := by have := const?_eval h1 env; rw [hle] at this; cases this; rfl
    have hb' : b = ub := by have := const?_eval h2 env; rw [hue] at this; cases this; rfl
    have hs : s = step := by have := const?_eval h3 env; rw [hse] at this; cases this; rfl
    subst ha hb' hs
    unfold constTrip at hb
    rw [if_neg (by omega)] at hb
    split at hb
    · cases hb
    · rename_i t hct
      cases hb
      rcases hp with ⟨-, p1, p2⟩ | ⟨-, -, p3⟩
      · rw [hwr, h64.ceil_div (by omega) p1 hpos p2] at hct
        by_cases hm : mz ≤ ⌈((b - a : ℤ) : ℚ) / s⌉
        · rw [if_pos hm] at hct; cases hct
        · rw [if_neg hm] at hct
          cases hct
          refine run_bounded hh hyk hlb hsv huv hfs hfu hpos hlt hw hlo hhi (hM _ _).1 rfl f32 (hM _ _).2 _ rfl ?_
          rw [htr]
          show ⌈((b - a : ℤ) : ℚ) / s⌉ = _
          omega
      · exact absurd ⟨_, rfl⟩ p3
  · cases hb
    rcases hp with ⟨⟨s, p0⟩, -⟩ | ⟨p1, p2, -⟩
    · cases p0
    · refine run_bounded hh hyk hlb hsv huv hfs hfu hpos hlt hw hlo hhi (hM _ _).1 rfl f32 (hM _ _).2 _ rfl ?_
      rw [htr]
      show min ((Src.const n mz).eval env).toInt ⌈f32 (f32 ((wrap 64 ((us.eval env).toInt - (lbs.eval env).toInt) : ℤ) : ℚ) /
        f32 (((st.eval env).toInt : ℤ) : ℚ))⌉ = _
      rw [hue, hle, hse]
      simp only [Dat.toInt]
      rw [hwr, h32.ceil_div (by omega) p1 hpos p2]
      rfl

end Verif.LoopTrip
