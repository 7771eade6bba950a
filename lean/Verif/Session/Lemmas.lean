import Verif.Session.Model
import Mathlib.Data.List.TakeWhile
/-!
# Sessions: the code keeps the specification (C109)
-/
namespace Verif.Session

variable {In Out : Type}

/-- A session of the code stands for a session of the specification. -/
def Rel (s : Sess In Out) : SpecSess In Out → Prop
  | .fresh a => s.initialized = false ∧ s.entryFn = none ∧ (a = true → s.handle ≠ .garbage)
  | .loaded L sfx e => s.initialized = true ∧ s.handle = .lib L ∧
      s.inSigFn = L.symbol ("omInputSignature".toList ++ sfx) ∧ s.inSigFn ≠ none ∧
      s.outSigFn = L.symbol ("omOutputSignature".toList ++ sfx) ∧ s.outSigFn ≠ none ∧
      s.infoFn = L.symbol ("omCompilationInfo".toList ++ sfx) ∧
      match e with
      | none => s.entryFn = none
      | some n => s.entryName = n ∧ s.entryFn = L.symbol n ∧ s.entryFn ≠ none

/-- The process is as the program left it, except for the handlers of SIGILL and SIGABRT. -/
def POk (env : Option Str) (h0 : Nat → Handler) (p : Process) : Prop :=
  p.constPath = env ∧ (∀ s, p.blocked s = false) ∧
    ∀ s, s ≠ 4 → s ≠ 6 → p.handlers s = h0 s

theorem pok_errno {env : Option Str} {h0 : Nat → Handler} {p : Process} (e : Int)
    (h : POk env h0 p) : POk env h0 { p with errno := e } := h

/-- All sessions. -/
def WRel (env : Option Str) (h0 : Nat → Handler) (w : World In Out) (ws : SpecWorld In Out) :
    Prop :=
  POk env h0 w.proc ∧ ∀ i,
    match w.sess i, ws i with
    | none, none => True
    | some s, some t => Rel s t
    | _, _ => False

theorem wrel_put {env : Option Str} {h0 : Nat → Handler} {w : World In Out}
    {ws : SpecWorld In Out} (h : WRel env h0 w ws) {p : Process} (hp : POk env h0 p) (i : Nat)
    {s : Sess In Out} {t : SpecSess In Out} (hr : Rel s t) :
    WRel env h0 ⟨p, put w.sess i (some s)⟩ (put ws i (some t)) := by
  refine ⟨hp, fun j => ?_⟩
  by_cases hj : j = i
  · simp only [put, hj, if_true]; exact hr
  · simp only [put, hj, if_false]; exact h.2 j

theorem wrel_remove {env : Option Str} {h0 : Nat → Handler} {w : World In Out}
    {ws : SpecWorld In Out} (h : WRel env h0 w ws) {p : Process} (hp : POk env h0 p) (i : Nat) :
    WRel env h0 ⟨p, put w.sess i none⟩ (put ws i none) := by
  refine ⟨hp, fun j => ?_⟩
  by_cases hj : j = i
  · simp only [put, hj, if_true]
  · simp only [put, hj, if_false]; exact h.2 j

theorem wrel_none {env : Option Str} {h0 : Nat → Handler} {w : World In Out}
    {ws : SpecWorld In Out} (h : WRel env h0 w ws) {i : Nat} (hi : w.sess i = none) :
    ws i = none := by
  have := h.2 i
  rw [hi] at this
  cases hs : ws i with
  | none => rfl
  | some t => rw [hs] at this; exact this.elim

theorem wrel_some {env : Option Str} {h0 : Nat → Handler} {w : World In Out}
    {ws : SpecWorld In Out} (h : WRel env h0 w ws) {i : Nat} {s : Sess In Out}
    (hi : w.sess i = some s) : ∃ t, ws i = some t ∧ Rel s t := by
  have := h.2 i
  rw [hi] at this
  cases hs : ws i with
  | none => rw [hs] at this; exact this.elim
  | some t => rw [hs] at this; exact ⟨t, rfl, this⟩

/-- Choosing an entry point. -/
theorem setEntryPoint_rel {env : Option Str} {h0 : Nat → Handler} {p : Process}
    (hp : POk env h0 p) {s : Sess In Out} {L : Library In Out} {sfx : Str} {e : Option Str}
    (hr : Rel s (.loaded L sfx e)) (n : Str) :
    (setEntryPoint p s n).1 = (specChoose L sfx n).1 ∧
      POk env h0 (setEntryPoint p s n).2.1 ∧
      Rel (setEntryPoint p s n).2.2 (specChoose L sfx n).2 := by
  obtain ⟨h1, h2, h3, h4, h5, h6, h7, _⟩ := hr
  unfold setEntryPoint specChoose
  cases hn : L.symbol n with
  | none =>
    have : setEntryPoint p s n = (.throws (.cannotLoad n), p, { s with entryFn := none }) := by
      simp [setEntryPoint, h1, h2, hn]
    simp only [setEntryPoint] at this
    rw [this]
    exact ⟨rfl, hp, h1, h2, h3, h4, h5, h6, h7, rfl⟩
  | some f =>
    have : setEntryPoint p s n =
        (.done, { p with errno := 0 }, { s with entryFn := some f, entryName := n }) := by
      simp [setEntryPoint, h1, h2, hn]
    simp only [setEntryPoint] at this
    rw [this]
    exact ⟨rfl, hp, h1, h2, h3, h4, h5, h6, h7, rfl, hn.symm, by simp⟩

/-- The end of loading. -/
theorem finishLoad_rel {env : Option Str} {h0 : Nat → Handler} {p : Process} {setPath : Bool}
    (hp : POk env h0 (if setPath then { p with constPath := none } else p)) {s : Sess In Out}
    {L : Library In Out} {sfx : Str} (hr : Rel { s with initialized := true } (.loaded L sfx none))
    (d : Bool) :
    (finishLoad p s setPath sfx d).1 = (if d then (specChoose L sfx (mainEntry sfx)).1 else .done) ∧
      POk env h0 (finishLoad p s setPath sfx d).2.1 ∧
      Rel (finishLoad p s setPath sfx d).2.2
        (if d then (specChoose L sfx (mainEntry sfx)).2 else .loaded L sfx none) := by
  unfold finishLoad
  cases d with
  | false =>
    simp only [Bool.false_eq_true, if_false]
    exact ⟨by trivial, pok_errno 0 hp, hr⟩
  | true =>
    simp only [if_true]
    exact setEntryPoint_rel hp hr (mainEntry sfx)

/-- The symbols. -/
theorem loadSymbols_rel {env : Option Str} {h0 : Nat → Handler} {p : Process} {setPath : Bool}
    (hp : POk env h0 (if setPath then { p with constPath := none } else p))
    (L : Library In Out) (sfx : Str) (hfail : missing L (required sfx) ≠ none → POk env h0 p)
    {s : Sess In Out} (hi : s.initialized = false) (he : s.entryFn = none)
    (hh : s.handle = .lib L) (d : Bool) :
    (loadSymbols p s L setPath sfx d).1 =
        (match missing L (required sfx) with
          | some n => .throws (.cannotLoad n)
          | none => if d then (specChoose L sfx (mainEntry sfx)).1 else .done) ∧
      POk env h0 (loadSymbols p s L setPath sfx d).2.1 ∧
      Rel (loadSymbols p s L setPath sfx d).2.2
        (match missing L (required sfx) with
          | some _ => .fresh true
          | none => if d then (specChoose L sfx (mainEntry sfx)).2 else .loaded L sfx none) := by
  unfold loadSymbols
  have hm : missing L (required sfx) =
      if L.symbol ("omQueryEntryPoints".toList ++ sfx) = none then
        some ("omQueryEntryPoints".toList ++ sfx)
      else if L.symbol ("omInputSignature".toList ++ sfx) = none then
        some ("omInputSignature".toList ++ sfx)
      else if L.symbol ("omOutputSignature".toList ++ sfx) = none then
        some ("omOutputSignature".toList ++ sfx)
      else none := by
    unfold missing required
    generalize "omQueryEntryPoints".toList ++ sfx = a
    generalize "omInputSignature".toList ++ sfx = b
    generalize "omOutputSignature".toList ++ sfx = c
    simp only [List.find?]
    cases L.symbol a <;> cases L.symbol b <;> cases L.symbol c <;> simp
  cases hq : L.symbol ("omQueryEntryPoints".toList ++ sfx) with
  | none =>
    rw [hq, if_pos rfl] at hm
    rw [hm] at hfail ⊢
    exact ⟨rfl, hfail (by simp), hi, he, fun _ => by rw [hh]; simp⟩
  | some q =>
    rw [hq, if_neg (by simp)] at hm
    cases hin : L.symbol ("omInputSignature".toList ++ sfx) with
    | none =>
      rw [hin, if_pos rfl] at hm
      rw [hm] at hfail ⊢
      exact ⟨rfl, hfail (by simp), hi, he, fun _ => by simp [hh]⟩
    | some a =>
      rw [hin, if_neg (by simp)] at hm
      cases hou : L.symbol ("omOutputSignature".toList ++ sfx) with
      | none =>
        rw [hou, if_pos rfl] at hm
        rw [hm] at hfail ⊢
        exact ⟨rfl, hfail (by simp), hi, he, fun _ => by simp [hh]⟩
      | some b =>
        rw [hou, if_neg (by simp)] at hm
        rw [hm]
        exact finishLoad_rel (s := { s with
            queryFn := some q
            inSigFn := some a
            outSigFn := some b
            infoFn := L.symbol ("omCompilationInfo".toList ++ sfx) }) hp
          ⟨rfl, hh, hin.symm, by simp, hou.symm, by simp, rfl, he⟩ d

/-- Loading, for a session that was not loaded. -/
theorem loadModel_rel (sys : Sys In Out) {env : Option Str} {h0 : Nat → Handler} {p : Process}
    (hp : POk env h0 p) {s : Sess In Out} {a : Bool} (hr : Rel s (.fresh a)) (path tag : Str)
    (d : Bool)
    (hadm : (∃ b, (specLoad sys dirOf stemOf env path tag d).2 = .fresh b) →
      env.isSome ∨ dirOf path = none) :
    (loadModel sys p s path tag d).1 = (specLoad sys dirOf stemOf env path tag d).1 ∧
      POk env h0 (loadModel sys p s path tag d).2.1 ∧
      Rel (loadModel sys p s path tag d).2.2 (specLoad sys dirOf stemOf env path tag d).2 := by
  obtain ⟨h1, h2, _⟩ := hr
  obtain ⟨hc, hb, hh⟩ := hp
  generalize hset : (p.constPath.isNone && (dirOf path).isSome) = setPath
  have henv : (if setPath = true then
      { p with constPath := dirOf path } else p).constPath = env.or (dirOf path) := by
    rw [hc] at hset
    cases env <;> cases hd : dirOf path <;> simp_all <;> simp [← hset, hc]
  have hend : POk env h0 (if setPath = true then { (if setPath = true then
      { p with constPath := dirOf path } else p) with constPath := none }
      else (if setPath = true then { p with constPath := dirOf path } else p)) := by
    cases setPath with
    | false => exact ⟨hc, hb, hh⟩
    | true =>
      refine ⟨?_, hb, hh⟩
      rw [← hc]
      cases hcp : p.constPath with
      | none => rfl
      | some c => rw [hcp] at hset; simp at hset
  have hfail : (∃ b, (specLoad sys dirOf stemOf env path tag d).2 = .fresh b) →
      POk env h0 (if setPath = true then { p with constPath := dirOf path } else p) := by
    intro hb'
    have : setPath = false := by
      rw [hc] at hset
      rcases hadm hb' with h | h
      · cases env <;> simp_all
      · rw [h] at hset; simpa using hset.symm
    rw [this]
    exact ⟨hc, hb, hh⟩
  have hL : loadModel sys p s path tag d = openLib sys
      (if setPath = true then { p with constPath := dirOf path } else p) s path
      (suffix (if tag = [] then stemOf path else tag)) setPath d := by
    unfold loadModel
    simp only [h1, Bool.false_eq_true, if_false, hset]
    rfl
  rw [hL]
  clear hL hset
  generalize (if setPath = true then { p with constPath := dirOf path } else p) = p1 at *
  unfold openLib
  unfold specLoad at hfail ⊢
  rw [← henv] at hfail ⊢
  cases ho : sys.dlopen path p1.constPath with
  | none =>
    simp only [ho] at hfail ⊢
    exact ⟨by trivial, hfail ⟨true, rfl⟩, h1, h2, fun _ => by simp⟩
  | some L =>
    simp only [ho] at hfail ⊢
    generalize suffix (if tag = [] then stemOf path else tag) = sfx at hfail ⊢
    have := loadSymbols_rel (s := { s with handle := .lib L }) (p := { p1 with opened := p1.opened + 1 })
      (env := env) (h0 := h0) (setPath := setPath)
      (by cases setPath <;> exact hend) L sfx
      (fun hne => by
        have : POk env h0 p1 := by
          apply hfail
          obtain ⟨n, hn⟩ := Option.ne_none_iff_exists'.mp hne
          rw [hn]
          exact ⟨true, rfl⟩
        exact this) h1 h2 rfl d
    cases hm : missing L (required sfx) with
    | some n => rw [hm] at this; exact this
    | none =>
      rw [hm] at this
      simp only at this ⊢
      cases d with
      | false => exact this
      | true =>
        simp only [if_true] at this ⊢
        unfold specChoose at this
        cases hmm : L.symbol (mainEntry sfx) with
        | none => simp only [hmm, Option.isSome_none, Bool.false_eq_true, if_false] at this; exact this
        | some m => simp only [hmm, Option.isSome_some, if_true] at this; exact this

/-- Signatures. -/
theorem signature_rel {env : Option Str} {h0 : Nat → Handler} {p : Process} (hp : POk env h0 p)
    {s : Sess In Out} {t : SpecSess In Out} (hr : Rel s t) :
    ((signature p s s.inSigFn).1 = specSignature t "omInputSignature".toList ∧
      POk env h0 (signature p s s.inSigFn).2) ∧
    ((signature p s s.outSigFn).1 = specSignature t "omOutputSignature".toList ∧
      POk env h0 (signature p s s.outSigFn).2) := by
  cases t with
  | fresh a =>
    obtain ⟨h1, _⟩ := hr
    simp only [signature, h1, specSignature]
    exact ⟨⟨by trivial, hp⟩, by trivial, hp⟩
  | loaded L sfx e =>
    obtain ⟨h1, h2, h3, h4, h5, h6, h7, h8⟩ := hr
    cases e with
    | none =>
      simp only at h8
      simp only [signature, h1, h8, specSignature, Bool.not_true, Bool.false_eq_true, if_false]
      exact ⟨⟨by trivial, hp⟩, by trivial, hp⟩
    | some n =>
      obtain ⟨h8, h9, h10⟩ := h8
      obtain ⟨f, hf⟩ := Option.ne_none_iff_exists'.mp h10
      obtain ⟨a, ha⟩ := Option.ne_none_iff_exists'.mp h4
      obtain ⟨b, hb⟩ := Option.ne_none_iff_exists'.mp h6
      rw [ha] at h3; rw [hb] at h5
      simp only [signature, h1, hf, specSignature, Bool.not_true, Bool.false_eq_true, if_false, h2,
        ha, hb, ← h3, ← h5, h8]
      exact ⟨⟨by trivial, hp⟩, by trivial, hp⟩

/-- The information about the compilation. -/
theorem info_rel {env : Option Str} {h0 : Nat → Handler} {p : Process} (hp : POk env h0 p)
    {s : Sess In Out} {t : SpecSess In Out} (hr : Rel s t) :
    (compilationInfo p s).1 = specInfo t ∧ POk env h0 (compilationInfo p s).2 := by
  cases t with
  | fresh a =>
    obtain ⟨h1, _⟩ := hr
    simp only [compilationInfo, h1, specInfo]
    exact ⟨by trivial, hp⟩
  | loaded L sfx e =>
    obtain ⟨h1, h2, h3, h4, h5, h6, h7, h8⟩ := hr
    simp only [compilationInfo, h1, specInfo, Bool.not_true, Bool.false_eq_true, if_false, h7, h2]
    cases hi : L.symbol ("omCompilationInfo".toList ++ sfx) with
    | none => exact ⟨by trivial, hp⟩
    | some f => exact ⟨by trivial, hp⟩

/-- The handlers during a guarded run. -/
theorem install_handlers (p : Process) (s : Nat) :
    (install p).1.handlers s =
      if s = 4 ∨ s = 6 ∨ s = 7 ∨ s = 8 ∨ s = 11 then Handler.session else p.handlers s := by
  simp only [install, sigaction]
  by_cases h6 : s = 6
  · simp [h6]
  by_cases h4 : s = 4
  · simp [h4]
  by_cases h8 : s = 8
  · simp [h8]
  by_cases h7 : s = 7
  · simp [h7]
  by_cases h11 : s = 11
  · simp [h11]
  simp [h6, h4, h8, h7, h11]

/-- The handlers after a guarded run that returns. -/
theorem restore_handlers (p : Process) (s : Nat) :
    (restore (install p).1 (install p).2).handlers s =
      if s = 4 then p.handlers 6 else p.handlers s := by
  simp only [restore, install, sigaction]
  by_cases h6 : s = 6
  · simp [h6]
  by_cases h4 : s = 4
  · simp [h4]
  by_cases h8 : s = 8
  · simp [h8]
  by_cases h7 : s = 7
  · simp [h7]
  by_cases h11 : s = 11
  · simp [h11]
  simp [h6, h4, h8, h7, h11]

/-- The handlers after a guarded run that is left by a signal. -/
theorem restoreSignal_handlers (p : Process) (s : Nat) :
    (restoreSignal (install p).1 (install p).2).handlers s =
      if s = 4 then p.handlers 6 else if s = 6 then Handler.session else p.handlers s := by
  simp only [restoreSignal, install, sigaction]
  by_cases h6 : s = 6
  · simp [h6]
  by_cases h4 : s = 4
  · simp [h4]
  by_cases h8 : s = 8
  · simp [h8]
  by_cases h7 : s = 7
  · simp [h7]
  by_cases h11 : s = 11
  · simp [h11]
  simp [h6, h4, h8, h7, h11]

theorem pok_restore {env : Option Str} {h0 : Nat → Handler} {p : Process} (hp : POk env h0 p) :
    POk env h0 (restore (install p).1 (install p).2) := by
  refine ⟨hp.1, hp.2.1, fun s h4 h6 => ?_⟩
  rw [restore_handlers, if_neg h4]
  exact hp.2.2 s h4 h6

theorem pok_restoreSignal {env : Option Str} {h0 : Nat → Handler} {p : Process}
    (hp : POk env h0 p) : POk env h0 (restoreSignal (install p).1 (install p).2) := by
  refine ⟨hp.1, hp.2.1, fun s h4 h6 => ?_⟩
  rw [restoreSignal_handlers, if_neg h4, if_neg h6]
  exact hp.2.2 s h4 h6

/-- A signal that is not blocked is delivered to the guarded run. -/
theorem deliver_installed (p : Process) (sig : Nat) (hb : p.blocked sig = false ∨ sig = 6)
    (hs : sig ∈ caught) (e : Int) :
    deliver { (install p).1 with errno := e } sig = .jumps := by
  have hs' : sig = 4 ∨ sig = 6 ∨ sig = 7 ∨ sig = 8 ∨ sig = 11 := by
    simpa [caught] using hs
  have hb' : ((install p).1.blocked sig && sig != 6) = false := by
    have : (install p).1.blocked sig = p.blocked sig := rfl
    rw [this]
    rcases hb with h | h
    · rw [h]; rfl
    · subst h; simp
  unfold deliver
  have hh := install_handlers p sig
  rw [if_pos hs'] at hh
  simp only [hb', hh, Bool.false_eq_true, if_false]

/-- Runs. -/
theorem run_rel (sys : Sys In Out) (hsave : sys.savesMask = true) {env : Option Str}
    {h0 : Nat → Handler} {p : Process} (hp : POk env h0 p) {s : Sess In Out}
    {t : SpecSess In Out} (hr : Rel s t) (x : In) (h : Bool)
    (hsig : ∀ σ, specRun t x = .throws (.signal σ) → h = true ∧ σ ∈ caught) :
    (runImpl sys p s x h).1 = specRun t x ∧ POk env h0 (runImpl sys p s x h).2 := by
  cases t with
  | fresh a =>
    obtain ⟨h1, _⟩ := hr
    simp only [runImpl, h1, specRun]
    exact ⟨by trivial, hp⟩
  | loaded L sfx e =>
    obtain ⟨h1, h2, h3, h4, h5, h6, h7, h8⟩ := hr
    cases e with
    | none =>
      simp only at h8
      simp only [runImpl, h1, h8, specRun, Bool.not_true, Bool.false_eq_true, if_false]
      exact ⟨by trivial, hp⟩
    | some n =>
      obtain ⟨h8, h9, h10⟩ := h8
      obtain ⟨f, hf⟩ := Option.ne_none_iff_exists'.mp h10
      rw [hf] at h9
      simp only [specRun, ← h9] at hsig ⊢
      simp only [runImpl, h1, hf, Bool.not_true, Bool.false_eq_true, if_false, h2]
      cases hr : L.entry f x with
      | list o =>
        cases h
        · simp only [Bool.false_eq_true, if_false, runPlain, specRan]
          exact ⟨by trivial, hp⟩
        · simp only [if_true, runGuarded, specRan]
          exact ⟨by trivial, pok_restore hp⟩
      | null e =>
        cases h
        · simp only [Bool.false_eq_true, if_false, runPlain, specRan]
          exact ⟨by trivial, hp⟩
        · simp only [if_true, runGuarded, specRan]
          exact ⟨by trivial, pok_restore hp⟩
      | raised σ =>
        obtain ⟨hh, hσ⟩ := hsig σ (by rw [hr]; rfl)
        subst hh
        simp only [if_true, runGuarded, specRan]
        rw [deliver_installed p σ (Or.inl (hp.2.1 σ)) hσ]
        simp only [hsave, if_true]
        exact ⟨by trivial, pok_restoreSignal hp⟩

/-- One call. -/
theorem step_rel (sys : Sys In Out) (hsave : sys.savesMask = true) {env : Option Str}
    {h0 : Nat → Handler} {w : World In Out} {ws : SpecWorld In Out} (hw : WRel env h0 w ws)
    (c : Call In) (hadm : Admissible sys dirOf stemOf env ws c) :
    (step sys w c).1 = (specStep sys dirOf stemOf env ws c).1 ∧
      WRel env h0 (step sys w c).2 (specStep sys dirOf stemOf env ws c).2 := by
  cases c with
  | construct i path tag d =>
    simp only [step, specStep]
    cases hi : w.sess i with
    | none =>
      have hsi := wrel_none hw hi
      have hfr : Rel ({} : Sess In Out) (.fresh false) := ⟨rfl, rfl, fun h => by simp at h⟩
      have hl := loadModel_rel sys hw.1 hfr path tag d (fun hb => by
        rcases hadm hb with h | h | ⟨L, sfx, e, h⟩
        · exact .inl h
        · exact .inr h
        · rw [hsi] at h; simp at h)
      simp only [hsi]
      rcases hL : loadModel sys w.proc {} path tag d with ⟨r, p', s'⟩
      rcases hS : specLoad sys dirOf stemOf env path tag d with ⟨r2, t'⟩
      simp only [hL, hS] at hl ⊢
      obtain ⟨hr1, hp', hrel⟩ := hl
      subst hr1
      cases r with
      | done => exact ⟨rfl, wrel_put hw hp' i hrel⟩
      | _ => exact ⟨rfl, hp', hw.2⟩
    | some s =>
      obtain ⟨t, ht, _⟩ := wrel_some hw hi
      simp only [ht]
      exact ⟨by trivial, hw⟩
  | create i =>
    simp only [step, specStep]
    cases hi : w.sess i with
    | none =>
      simp only [wrel_none hw hi]
      exact ⟨by trivial, wrel_put hw hw.1 i ⟨rfl, rfl, fun h => by simp at h⟩⟩
    | some s =>
      obtain ⟨t, ht, _⟩ := wrel_some hw hi
      simp only [ht]
      exact ⟨by trivial, hw⟩
  | load i path tag d =>
    simp only [step, specStep]
    cases hi : w.sess i with
    | none =>
      simp only [wrel_none hw hi]
      exact ⟨by trivial, hw⟩
    | some s =>
      obtain ⟨t, ht, hrel⟩ := wrel_some hw hi
      simp only [ht]
      cases t with
      | fresh a =>
        have hl := loadModel_rel sys hw.1 hrel path tag d (fun hb => by
          rcases hadm hb with h | h | ⟨L, sfx, e, h⟩
          · exact .inl h
          · exact .inr h
          · rw [ht] at h; simp at h)
        exact ⟨hl.1, wrel_put hw hl.2.1 i hl.2.2⟩
      | loaded L sfx e =>
        have h1 : s.initialized = true := hrel.1
        simp only [loadModel, h1, if_true]
        refine ⟨by trivial, hw.1, fun j => ?_⟩
        by_cases hj : j = i
        · subst hj
          simp only [put, if_true, ht]
          exact hrel
        · simp only [put, hj, if_false]; exact hw.2 j
  | setEntryPoint i n =>
    simp only [step, specStep]
    cases hi : w.sess i with
    | none =>
      simp only [wrel_none hw hi]
      exact ⟨by trivial, hw⟩
    | some s =>
      obtain ⟨t, ht, hrel⟩ := wrel_some hw hi
      simp only [ht]
      cases t with
      | fresh a =>
        have h1 : s.initialized = false := hrel.1
        simp only [setEntryPoint, h1]
        refine ⟨by trivial, hw.1, fun j => ?_⟩
        by_cases hj : j = i
        · subst hj
          simp only [put, if_true, ht]
          exact hrel
        · simp only [put, hj, if_false]; exact hw.2 j
      | loaded L sfx e =>
        have hl := setEntryPoint_rel hw.1 hrel n
        exact ⟨hl.1, wrel_put hw hl.2.1 i hl.2.2⟩
  | inputSignature i =>
    simp only [step, specStep]
    cases hi : w.sess i with
    | none => simp only [wrel_none hw hi]; exact ⟨by trivial, hw⟩
    | some s =>
      obtain ⟨t, ht, hrel⟩ := wrel_some hw hi
      have := (signature_rel hw.1 hrel).1
      simp only [ht, Option.elim]
      exact ⟨this.1, this.2, hw.2⟩
  | outputSignature i =>
    simp only [step, specStep]
    cases hi : w.sess i with
    | none => simp only [wrel_none hw hi]; exact ⟨by trivial, hw⟩
    | some s =>
      obtain ⟨t, ht, hrel⟩ := wrel_some hw hi
      have := (signature_rel hw.1 hrel).2
      simp only [ht, Option.elim]
      exact ⟨this.1, this.2, hw.2⟩
  | compilationInfo i =>
    simp only [step, specStep]
    cases hi : w.sess i with
    | none => simp only [wrel_none hw hi]; exact ⟨by trivial, hw⟩
    | some s =>
      obtain ⟨t, ht, hrel⟩ := wrel_some hw hi
      have := info_rel hw.1 hrel
      simp only [ht, Option.elim]
      exact ⟨this.1, this.2, hw.2⟩
  | run i x =>
    simp only [step, specStep]
    cases hi : w.sess i with
    | none => simp only [wrel_none hw hi]; exact ⟨by trivial, hw⟩
    | some s =>
      obtain ⟨t, ht, hrel⟩ := wrel_some hw hi
      have := run_rel sys hsave hw.1 hrel x false (fun σ h => absurd h (hadm t σ ht))
      simp only [ht, Option.elim]
      exact ⟨this.1, this.2, hw.2⟩
  | runDebug i x h =>
    simp only [step, specStep]
    cases hi : w.sess i with
    | none => simp only [wrel_none hw hi]; exact ⟨by trivial, hw⟩
    | some s =>
      obtain ⟨t, ht, hrel⟩ := wrel_some hw hi
      have := run_rel sys hsave hw.1 hrel x h (fun σ h => hadm t σ ht h)
      simp only [ht, Option.elim]
      exact ⟨this.1, this.2, hw.2⟩
  | destroy i =>
    simp only [step, specStep]
    cases hi : w.sess i with
    | none => simp only [wrel_none hw hi]; exact ⟨by trivial, hw⟩
    | some s =>
      obtain ⟨t, ht, hrel⟩ := wrel_some hw hi
      simp only [ht]
      have hg : s.handle ≠ .garbage := by
        cases t with
        | fresh a =>
          cases a with
          | false => exact absurd ht hadm
          | true => exact hrel.2.2 rfl
        | loaded L sfx e => rw [hrel.2.1]; simp
      unfold destroy
      cases hh : s.handle with
      | garbage => exact absurd hh hg
      | null => exact ⟨by trivial, wrel_remove hw hw.1 i⟩
      | lib L => exact ⟨by trivial, wrel_remove hw hw.1 i⟩

/-- A history. -/
theorem runAll_rel (sys : Sys In Out) (hsave : sys.savesMask = true) {env : Option Str}
    {h0 : Nat → Handler} (cs : List (Call In)) {w : World In Out} {ws : SpecWorld In Out}
    (hw : WRel env h0 w ws) (hadm : AllAdmissible sys dirOf stemOf env ws cs) :
    (runAll sys w cs).1 = (specRunAll sys dirOf stemOf env ws cs).1 ∧
      WRel env h0 (runAll sys w cs).2 (specRunAll sys dirOf stemOf env ws cs).2 := by
  induction cs generalizing w ws with
  | nil => exact ⟨rfl, hw⟩
  | cons c cs ih =>
    obtain ⟨h1, h2⟩ := step_rel sys hsave hw c hadm.1
    obtain ⟨h3, h4⟩ := ih h2 hadm.2
    simp only [runAll, specRunAll]
    exact ⟨by rw [h1, h3], h4⟩

/-! ## Handlers -/

/-- The answer tells of a signal. -/
def tellsSignal : Resp Out → Bool
  | .throws (.signal _) | .killed _ | .foreign _ | .undefined => true
  | _ => false

theorem setEntryPoint_handlers (p : Process) (s : Sess In Out) (n : Str) :
    (setEntryPoint p s n).2.1.handlers = p.handlers := by
  unfold setEntryPoint
  split
  · rfl
  · split
    · split <;> rfl
    · rfl

theorem openLib_handlers (sys : Sys In Out) (p : Process) (s : Sess In Out) (path sfx : Str)
    (b d : Bool) : (openLib sys p s path sfx b d).2.1.handlers = p.handlers := by
  unfold openLib
  split
  · rfl
  · unfold loadSymbols
    split
    · rfl
    · split
      · rfl
      · split
        · rfl
        · unfold finishLoad
          simp only
          split
          · rw [setEntryPoint_handlers]
            split <;> rfl
          · cases b <;> rfl

theorem loadModel_handlers (sys : Sys In Out) (p : Process) (s : Sess In Out) (path tag : Str)
    (d : Bool) : (loadModel sys p s path tag d).2.1.handlers = p.handlers := by
  unfold loadModel
  split
  · rfl
  · refine (openLib_handlers sys _ s path _ _ d).trans ?_
    split <;> rfl

theorem runImpl_handlers (sys : Sys In Out) (p : Process) (s : Sess In Out) (x : In) (h : Bool)
    (heq : p.handlers 4 = p.handlers 6) (hr : tellsSignal (runImpl sys p s x h).1 = false) :
    (runImpl sys p s x h).2.handlers = p.handlers := by
  have hrest : (restore (install p).1 (install p).2).handlers = p.handlers := by
    funext k
    rw [restore_handlers]
    split
    · rename_i hk; rw [hk, heq]
    · rfl
  unfold runImpl at hr ⊢
  by_cases hi : (!s.initialized) = true
  · rw [if_pos hi]
  · rw [if_neg hi] at hr ⊢
    cases he : s.entryFn with
    | none => rfl
    | some f =>
      rw [he] at hr
      cases hh : s.handle with
      | garbage => rfl
      | null => rfl
      | lib L =>
        rw [hh] at hr
        simp only at hr ⊢
        cases h with
        | false =>
          simp only [Bool.false_eq_true, if_false] at hr ⊢
          unfold runPlain at hr ⊢
          cases L.entry f x with
          | list o => rfl
          | null e => rfl
          | raised σ =>
            simp only at hr ⊢
            cases deliver { p with errno := 0 } σ <;> rfl
        | true =>
          simp only [if_true] at hr ⊢
          unfold runGuarded at hr ⊢
          cases hL : L.entry f x with
          | list o => exact hrest
          | null e => exact hrest
          | raised σ =>
            rw [hL] at hr
            simp only at hr ⊢
            generalize deliver _ σ = dv at hr
            cases dv <;> simp [tellsSignal] at hr

theorem step_handlers (sys : Sys In Out) (w : World In Out) (c : Call In)
    (heq : w.proc.handlers 4 = w.proc.handlers 6)
    (hr : tellsSignal (step sys w c).1 = false) :
    (step sys w c).2.proc.handlers = w.proc.handlers := by
  cases c with
  | construct i path tag d =>
    simp only [step] at hr ⊢
    cases w.sess i with
    | some s => rfl
    | none =>
      have := loadModel_handlers sys w.proc {} path tag d
      simp only
      rcases hL : loadModel sys w.proc {} path tag d with ⟨r, p', s'⟩
      rw [hL] at this
      cases r <;> exact this
  | create i => simp only [step]; cases w.sess i <;> rfl
  | load i path tag d =>
    simp only [step]
    cases w.sess i with
    | none => rfl
    | some s => exact loadModel_handlers sys w.proc s path tag d
  | setEntryPoint i n =>
    simp only [step]
    cases w.sess i with
    | none => rfl
    | some s => exact setEntryPoint_handlers w.proc s n
  | inputSignature i =>
    simp only [step]
    cases w.sess i with
    | none => rfl
    | some s =>
      simp only [signature]
      split
      · rfl
      · split
        · rfl
        · split <;> rfl
  | outputSignature i =>
    simp only [step]
    cases w.sess i with
    | none => rfl
    | some s =>
      simp only [signature]
      split
      · rfl
      · split
        · rfl
        · split <;> rfl
  | compilationInfo i =>
    simp only [step]
    cases w.sess i with
    | none => rfl
    | some s =>
      simp only [compilationInfo]
      split
      · rfl
      · split
        · rfl
        · split <;> rfl
  | run i x =>
    simp only [step] at hr ⊢
    cases hs : w.sess i with
    | none => rfl
    | some s =>
      rw [hs] at hr
      exact runImpl_handlers sys w.proc s x false heq hr
  | runDebug i x h =>
    simp only [step] at hr ⊢
    cases hs : w.sess i with
    | none => rfl
    | some s =>
      rw [hs] at hr
      exact runImpl_handlers sys w.proc s x h heq hr
  | destroy i =>
    simp only [step]
    cases w.sess i with
    | none => rfl
    | some s =>
      simp only [destroy]
      split <;> rfl

theorem runAll_handlers (sys : Sys In Out) (cs : List (Call In)) (w : World In Out)
    (heq : w.proc.handlers 4 = w.proc.handlers 6)
    (hr : ∀ r ∈ (runAll sys w cs).1, tellsSignal r = false) :
    (runAll sys w cs).2.proc.handlers = w.proc.handlers := by
  induction cs generalizing w with
  | nil => rfl
  | cons c cs ih =>
    simp only [runAll, List.mem_cons, forall_eq_or_imp] at hr ⊢
    have h1 := step_handlers sys w c heq hr.1
    rw [ih _ (by rw [h1]; exact heq) hr.2, h1]

/-! ## Opening and closing -/

theorem loadModel_done (sys : Sys In Out) (p : Process) (s : Sess In Out) (path tag : Str)
    (d : Bool) (h : (loadModel sys p s path tag d).1 = .done) :
    (loadModel sys p s path tag d).2.1.opened = p.opened + 1 ∧
      ∃ L, (loadModel sys p s path tag d).2.2.handle = .lib L := by
  unfold loadModel at h ⊢
  by_cases hi : s.initialized = true
  · rw [if_pos hi] at h; simp at h
  rw [if_neg hi] at h ⊢
  simp only at h ⊢
  generalize (p.constPath.isNone && (dirOf path).isSome) = b at h ⊢
  have ho : (if b = true then { p with constPath := dirOf path } else p).opened = p.opened := by
    split <;> rfl
  generalize (if b = true then { p with constPath := dirOf path } else p) = p1 at h ho ⊢
  rw [← ho]
  unfold openLib at h ⊢
  cases hd : sys.dlopen path p1.constPath with
  | none => rw [hd] at h; simp at h
  | some L =>
    rw [hd] at h
    simp only at h ⊢
    generalize lowDash (if tag = [] then stemOf path else tag) = sfx at h ⊢
    unfold loadSymbols at h ⊢
    cases hq : L.symbol ("omQueryEntryPoints".toList ++ sfx) with
    | none => rw [hq] at h; simp at h
    | some q =>
      cases hin : L.symbol ("omInputSignature".toList ++ sfx) with
      | none => rw [hq, hin] at h; simp at h
      | some a =>
        cases hou : L.symbol ("omOutputSignature".toList ++ sfx) with
        | none => rw [hq, hin, hou] at h; simp at h
        | some c =>
          rw [hq, hin, hou] at h
          simp only at h ⊢
          unfold finishLoad at h ⊢
          cases d with
          | false =>
            simp only [Bool.false_eq_true, if_false] at h ⊢
            refine ⟨?_, L, rfl⟩
            cases b <;> rfl
          | true =>
            simp only [if_true] at h ⊢
            unfold setEntryPoint at h ⊢
            simp only [Bool.not_true, Bool.false_eq_true, if_false] at h ⊢
            cases hm : L.symbol ("run_main_graph".toList ++ sfx) with
            | none => rw [hm] at h; simp at h
            | some f =>
              refine ⟨?_, L, rfl⟩
              cases b <;> rfl

/-! ## Paths -/

theorem dirOf_isDir (path : Str) : IsDir path (dirOf path) := by
  have hsplit : path.reverse.takeWhile (fun c => !isSep c) ++
      path.reverse.dropWhile (fun c => !isSep c) = path.reverse := List.takeWhile_append_dropWhile
  have hall : ∀ c ∈ path.reverse.takeWhile (fun c => !isSep c), c ≠ '/' ∧ c ≠ '\\' := by
    intro c hc
    have := List.mem_takeWhile_imp hc
    simpa [isSep] using this
  unfold dirOf
  cases hd : path.reverse.dropWhile (fun c => !isSep c) with
  | nil =>
    rw [hd, List.append_nil] at hsplit
    intro c hc
    exact hall c (by rw [hsplit]; simpa using hc)
  | cons c front =>
    refine ⟨c, (path.reverse.takeWhile (fun c => !isSep c)).reverse, ?_, ?_, ?_⟩
    · have := congrArg List.reverse hsplit
      rw [hd] at this
      simpa using this.symm
    · have hne : path.reverse.dropWhile (fun c => !isSep c) ≠ [] := by rw [hd]; simp
      have := List.head_dropWhile_not (fun c => !isSep c) hne
      simp only [hd, List.head_cons] at this
      have h2 : isSep c = true := by simpa using this
      simpa [isSep] using h2
    · intro x hx
      exact hall x (by simpa using hx)

theorem takeWhile_stop (p : Char → Bool) (a b : Str) (ha : ∀ c ∈ a, p c = true)
    (hb : b = [] ∨ ∃ c r, b = c :: r ∧ p c = false) : (a ++ b).takeWhile p = a := by
  induction a with
  | nil =>
    rcases hb with rfl | ⟨c, r, rfl, hc⟩
    · rfl
    · simp [List.takeWhile, hc]
  | cons x a ih =>
    have := ha x (by simp)
    simp only [List.cons_append, List.takeWhile, this]
    rw [ih (fun c hc => ha c (by simp [hc]))]

theorem dropWhile_stop (p : Char → Bool) (a b : Str) (ha : ∀ c ∈ a, p c = true)
    (hb : b = [] ∨ ∃ c r, b = c :: r ∧ p c = false) : (a ++ b).dropWhile p = b := by
  induction a with
  | nil =>
    rcases hb with rfl | ⟨c, r, rfl, hc⟩
    · rfl
    · simp [List.dropWhile, hc]
  | cons x a ih =>
    have := ha x (by simp)
    simp only [List.cons_append, List.dropWhile, this]
    rw [ih (fun c hc => ha c (by simp [hc]))]

theorem stemOf_eq (dir base ext : Str) (hdir : dir = [] ∨ dir.getLast? = some '/')
    (hbase : base ≠ []) (hslash : '/' ∉ base) (hext : ext ≠ []) (hext1 : '/' ∉ ext)
    (hext2 : '.' ∉ ext) : stemOf (dir ++ base ++ '.' :: ext) = lower base := by
  have hf : fileName (dir ++ base ++ '.' :: ext) = base ++ '.' :: ext := by
    unfold fileName
    have : (dir ++ base ++ '.' :: ext).reverse = (base ++ '.' :: ext).reverse ++ dir.reverse := by
      simp
    rw [this, takeWhile_stop, List.reverse_reverse]
    · intro c hc
      rw [List.mem_reverse] at hc
      have : c ≠ '/' := by
        rintro rfl
        simp only [List.mem_append, List.mem_cons] at hc
        rcases hc with h | h | h
        · exact hslash h
        · exact absurd h (by decide)
        · exact hext1 h
      simpa using this
    · rcases hdir with rfl | h
      · exact .inl rfl
      · refine .inr ?_
        rw [← List.head?_reverse] at h
        cases hr : dir.reverse with
        | nil => rw [hr] at h; simp at h
        | cons c r =>
          rw [hr] at h
          simp only [List.head?_cons, Option.some.injEq] at h
          exact ⟨c, r, rfl, by simp [h]⟩
  have he : dropExt (base ++ '.' :: ext) = base := by
    unfold dropExt
    have : (base ++ '.' :: ext).reverse = ext.reverse ++ '.' :: base.reverse := by simp
    rw [this, dropWhile_stop]
    · simp only
      rw [if_neg, List.reverse_reverse]
      rintro (h | h)
      · exact hbase (by simpa using h)
      · have hl := congrArg List.length h
        have h1 := List.length_pos_iff.mpr hbase
        have h2 := List.length_pos_iff.mpr hext
        simp at hl
        omega
    · intro c hc
      rw [List.mem_reverse] at hc
      have : c ≠ '.' := fun e => hext2 (e ▸ hc)
      simpa using this
    · exact .inr ⟨'.', _, rfl, by decide⟩
  rw [stemOf, hf, he]

end Verif.Session
