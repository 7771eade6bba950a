import Verif.Par.Lemmas

/-!
# Parallel constant folding

`Par.run s sched` lets the threads make single memory accesses in the order of `sched`; `done` says
that every worker has returned, which is when `parallelFor` returns.
-/

namespace Verif.Props

open Verif.Par

/-- The tiles of `T` workers divide `0 … n-1`: every element is in the tile of exactly one worker, and
tiles contain nothing else. -/
theorem C29_tiles (n T : Nat) (hT : 0 < T) :
    (∀ k, k < n → ∃ t, t < T ∧ k ∈ tileItems n T t ∧
      ∀ u, u < T → k ∈ tileItems n T u → u = t) ∧
    (∀ t, t < T → (tileItems n T t).Nodup ∧ ∀ k ∈ tileItems n T t, k < n) := by
  refine ⟨fun k hk => ?_, fun t ht => ⟨nodup_tileItems n T t, fun k hk => ?_⟩⟩
  · obtain ⟨t, ht, h⟩ := tile_cover n T k hT hk
    exact ⟨t, ht, (mem_tileItems n T t k).2 h, fun u hu hk' =>
      tile_unique n T k hu ht ((mem_tileItems ..).1 hk') h⟩
  · have h := (mem_tileItems n T t k).1 hk
    have := (tile_bounds n T t ht).2
    omega

example : tileItems 7 3 0 = [0, 1, 2] ∧ tileItems 7 3 1 = [3, 4] ∧ tileItems 7 3 2 = [5, 6] := by
  decide

/-- Elementwise transformation: whatever the interleaving, when all workers have returned every one of
the `n` elements has been transformed exactly once and no other cell has changed. -/
theorem C29_transform {W : Type} (f : W → W) (n T : Nat) (hT : 0 < T) (mem reg : Nat → W)
    (sched : List Nat)
    (hdone : (run (start mem reg T fun t => transformWork f (tileItems n T t)) sched).done) :
    ∀ k, (run (start mem reg T fun t => transformWork f (tileItems n T t)) sched).mem k =
      if k < n then f (mem k) else mem k := by
  intro k
  refine parallel_items n T hT (fun k => [.load k, .store k f]) (fun _ w => f w) ?_ ?_ ?_ mem reg
    sched hdone k
  · intro k a ha
    simp at ha
    rcases ha with rfl | rfl <;> rfl
  · intro k mem r; exact exec_transform f k mem r
  · intro k; simp

/-- Reduction: whatever the interleaving, when all workers have returned result element `k` is the left
fold of its source elements in order. -/
theorem C29_reduce {W : Type} (red : W → W → W) (first : Nat → W) (rest : Nat → List W) (n T : Nat)
    (hT : 0 < T) (mem reg : Nat → W) (sched : List Nat)
    (hdone : (run (start mem reg T fun t =>
      reduceWork red first rest (tileItems n T t)) sched).done) :
    ∀ k, (run (start mem reg T fun t => reduceWork red first rest (tileItems n T t)) sched).mem k =
      if k < n then (rest k).foldl red (first k) else mem k := by
  intro k
  refine parallel_items n T hT (fun k => reduceBody red k (first k) (rest k))
    (fun k _ => (rest k).foldl red (first k)) ?_ ?_ ?_ mem reg sched hdone k
  · intro k a ha
    unfold reduceBody at ha
    rcases List.mem_cons.1 ha with rfl | ha
    · rfl
    · obtain ⟨x, -, ha⟩ := List.mem_flatMap.1 ha
      simp at ha
      rcases ha with rfl | rfl <;> rfl
  · intro k mem r; exact exec_reduce red k (first k) (rest k) mem r
  · intro k; simp [reduceBody]

/-- All workers can return: some schedule finishes, whatever the work. -/
theorem C29_can_finish {W : Type} (mem reg : Nat → W) (T : Nat) (work : Nat → List (Acc W)) :
    ∃ sched, (run (start mem reg T work) sched).done :=
  finishes _ T fun t ht => by simp [start, Nat.not_lt.2 ht]

/-- Parallel and sequential constant folding agree: the sequential path (one tile with all elements,
ElementsAttrBuilder.hpp 275-277) and any finished parallel run leave the same memory. -/
theorem C29_parallel_eq_sequential {W : Type} (f : W → W) (n T : Nat) (hT : 0 < T)
    (mem reg reg' : Nat → W) (sched sched' : List Nat)
    (h : (run (start mem reg T fun t => transformWork f (tileItems n T t)) sched).done)
    (h' : (run (start mem reg' 1 fun _ => transformWork f (List.range n)) sched').done) :
    (run (start mem reg T fun t => transformWork f (tileItems n T t)) sched).mem =
      (run (start mem reg' 1 fun _ => transformWork f (List.range n)) sched').mem := by
  have hr : (start mem reg' 1 fun _ => transformWork f (List.range n)) =
      start mem reg' 1 fun t => transformWork f (tileItems n 1 t) := by
    unfold start
    congr 1
    funext t
    by_cases ht : t < 1
    · have : t = 0 := by omega
      subst this
      have : tileItems n 1 0 = List.range n := by
        simp [tileItems, tile, Nat.mod_one, List.range_eq_range']
      simp [this]
    · simp [ht]
  funext k
  rw [C29_transform f n T hT mem reg sched h]
  rw [hr] at h' ⊢
  rw [C29_transform f n 1 (by omega) mem reg' sched' h']

/-- Two workers on three elements, interleaved step by step. -/
example : (run (start (fun k => k) (fun _ => 0) 2 fun t =>
      transformWork (· + 10) (tileItems 3 2 t)) [0, 1, 0, 1, 0, 0]).mem 2 = 12 ∧
    (run (start (fun k => k) (fun _ => 0) 2 fun t =>
      transformWork (· + 10) (tileItems 3 2 t)) [0, 1, 0, 1, 0, 0]).done := by
  refine ⟨by decide, fun t => ?_⟩
  match t with
  | 0 => rfl
  | 1 => rfl
  | t + 2 => rfl

end Verif.Props
