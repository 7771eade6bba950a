import Verif.Runtime.HeapLemmas

/-!
# C03, C04: tensor ownership and tensor lists
-/

namespace Verif.Props

open Verif.Runtime.Heap

/-- C03 (a). A history of API calls that keeps the client's side of the contract never makes
the library free an allocation twice, free something that is not an allocation, or touch a
destroyed tensor or list: it runs to the end. -/
theorem C03_no_double_free (ops : List Op) (leg : LegalRun State.init ops) :
    ∃ s, run State.init ops = .ok s := by
  obtain ⟨s, h, _⟩ := run_ok inv_init ops leg
  exact ⟨s, h⟩

/-- C03 (b). After any legal history, a further legal library call leaves every existing
allocation that no live tensor owns as it is. -/
theorem C03_frees_only_owned (ops : List Op) (op : Op) (s s' : State)
    (leg : LegalRun State.init (ops ++ [op])) (hr : run State.init ops = .ok s)
    (hs : step s op = .ok s') (hop : ∀ p, op ≠ .userFree p) (p : Nat)
    (hno : ∀ h, ¬ OwnedBy s h p) (hal : s.bufs p ≠ none) :
    s'.bufs p = s.bufs p := by
  obtain ⟨l1, l2⟩ := legalRun_append leg hr
  obtain ⟨s0, h0, inv⟩ := run_ok inv_init ops l1
  rw [hr] at h0; cases h0
  exact step_frees_only_owned inv l2.1 hs hop p hno hal

/-- C03 (c). Ownership is never lost: an allocation owned by a tensor before a legal call is
still owned by it afterwards, unless the call freed it or handed ownership back. -/
theorem C03_no_leak (ops : List Op) (op : Op) (s s' : State)
    (leg : LegalRun State.init (ops ++ [op])) (hr : run State.init ops = .ok s)
    (hs : step s op = .ok s') (h p : Nat) (ho : OwnedBy s h p) :
    OwnedBy s' h p ∨ op = .setOwning h false ∨ s'.bufs p = some .freed := by
  obtain ⟨l1, l2⟩ := legalRun_append leg hr
  obtain ⟨s0, h0, inv⟩ := run_ok inv_init ops l1
  rw [hr] at h0; cases h0
  exact step_no_leak inv l2.1 hs h p ho

/-- C03 (d). What a tensor owns is live memory. -/
theorem C03_owned_is_live (ops : List Op) (s : State) (leg : LegalRun State.init ops)
    (hr : run State.init ops = .ok s) (h p : Nat) (ho : OwnedBy s h p) :
    s.bufs p = some .live := by
  obtain ⟨s0, h0, inv⟩ := run_ok inv_init ops leg
  rw [hr] at h0; cases h0
  exact inv.live h p ho

/-- A legal history: an empty tensor, a tensor over client memory that is later given
ownership, a list of both, deep destruction of the list. -/
def exampleOps : List Op :=
  [.createEmpty, .malloc, .create (some 1) false, .setOwning 1 true,
   .listCreate [some 0, none, some 1], .listDestroy 0]

example : LegalRun State.init exampleOps := by
  simp [exampleOps, LegalRun, Legal, step, State.init, OwnedBy, Function.update, destroyAll,
    destroyTensor, releaseOld, freeBuf]
  intro h hh; split at hh <;> simp_all

/-- Both allocations of the example are freed at the end. -/
example : (run State.init exampleOps).map (fun s => (s.bufs 0, s.bufs 1, s.tens 0, s.tens 1)) =
    .ok (some .freed, some .freed, none, none) := by
  rfl

/-- The contract matters: destroying twice is an error the model can see. -/
example : run State.init [.createEmpty, .destroy (some 0), .destroy (some 0)] =
    .error .useAfterFree := by rfl

/-- So is handing one allocation to two owning tensors. -/
example : run State.init [.malloc, .create (some 0) true, .create (some 0) true,
    .destroy (some 0), .destroy (some 1)] = .error .badFree := by rfl

/-- C04. A list created from the first `n` entries of the caller's array returns the `i`-th
of them for `0 ≤ i < n`, `NULL` for every other index, and never reads out of bounds. The
array is copied, so the answer depends on its content at creation only. -/
theorem C04_list_access (arr : List Nat) (n : Int) (hn : n ≤ arr.length) :
    ∃ l, listCreate arr n = some l ∧
      ∀ i : Int, listGet l i = some (if 0 ≤ i ∧ i < n then arr[i.toNat]? else none) := by
  unfold listCreate
  by_cases hp : n > 0
  · have h1 : n.toNat ≤ arr.length := by omega
    refine ⟨_, by rw [if_pos hp, if_pos h1], ?_⟩
    intro i
    unfold listGet
    by_cases hi : 0 ≤ i ∧ i < n
    · have h2 : ¬ (i < 0 ∨ i ≥ n) := by omega
      have h3 : i.toNat < n.toNat := by omega
      have h4 : i.toNat < arr.length := by omega
      simp [hi, h3, h4]
    · have h2 : i < 0 ∨ i ≥ n := by omega
      simp [h2, hi]
  · refine ⟨_, by rw [if_neg hp], ?_⟩
    intro i
    have h2 : i < 0 ∨ i ≥ n := by omega
    have hi : ¬ (0 ≤ i ∧ i < n) := by omega
    simp only [listGet, h2, if_true, hi, if_false]

/-- In bounds, the returned pointer is the caller's. -/
example : (listCreate [10, 11, 12] 2).map (fun l => [listGet l 1, listGet l 2, listGet l (-1)]) =
    some [some (some 11), some none, some none] := by decide

end Verif.Props
