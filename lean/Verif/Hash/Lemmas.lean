import Verif.Hash.Model
import Mathlib.Data.List.Perm.Basic
import Mathlib.Tactic.Ring

/-! # Invariants of the perfect hash construction -/

namespace Verif.Hash

section
variable {κ : Type} {h : BitVec 32 → κ → BitVec 32} {size : Nat} {dict : κ → Int}

theorem slot_lt (hs : 0 < size) (d : Int) (k : κ) : slot h size d k < size := Nat.mod_lt _ hs

theorem tryBucket_spec {hval : Int} {V : Nat → Int} : ∀ (ks : List κ) (slots r : List Nat),
    tryBucket h size hval V ks slots = some r → slots.Nodup →
    r = slots ++ ks.map (slot h size hval) ∧ r.Nodup ∧
      ∀ k ∈ ks, V (slot h size hval k) = -1 := by
  intro ks
  induction ks with
  | nil => intro slots r hr hn; simp [tryBucket] at hr; subst hr; simp [hn]
  | cons k ks ih =>
    intro slots r hr hn
    simp only [tryBucket] at hr
    split at hr
    · cases hr
    · rename_i hc
      simp only [not_or, not_not] at hc
      obtain ⟨h1, h2, h3⟩ := ih _ _ hr (by
        rw [List.nodup_append]
        refine ⟨hn, by simp, ?_⟩
        intro a ha b hb; simp at hb; subst hb; rintro rfl; exact hc.2 ha)
      refine ⟨by rw [h1]; simp, h2, ?_⟩
      intro k' hk'
      rcases List.mem_cons.1 hk' with rfl | hk'
      · exact hc.1
      · exact h3 k' hk'

theorem searchHval_spec {V : Nat → Int} {bucket : List κ} : ∀ (fuel : Nat) (hv : Int) r,
    searchHval h size V bucket fuel hv = some r → hv ≤ r.1 ∧
      tryBucket h size r.1 V bucket [] = some r.2 := by
  intro fuel
  induction fuel with
  | zero => intro hv r hr; simp [searchHval] at hr
  | succ n ih =>
    intro hv r hr
    simp only [searchHval] at hr
    split at hr
    · rename_i slots hs
      simp at hr; subst hr; exact ⟨le_refl _, hs⟩
    · obtain ⟨a, b⟩ := ih _ _ hr
      exact ⟨by omega, b⟩

/-- Number of free slots. -/
def freeCount (size : Nat) (V : Nat → Int) : Nat := (List.range size).countP fun s => V s = -1

theorem countP_update (l : List Nat) (hl : l.Nodup) (V : Nat → Int) (s : Nat) (v : Int)
    (hv : v ≠ -1) (hs : V s = -1) :
    (l.countP fun x => Function.update V s v x = -1) + (if s ∈ l then 1 else 0)
      = l.countP fun x => V x = -1 := by
  induction l with
  | nil => simp
  | cons a l ih =>
    rw [List.nodup_cons] at hl
    have := ih hl.2
    rw [List.countP_cons, List.countP_cons]
    by_cases ha : a = s
    · subst ha
      simp only [hl.1, if_false, Function.update_self, hv, hs, List.mem_cons, true_or, if_true,
        decide_false, decide_true] at this ⊢
      simp at this ⊢
      omega
    · simp only [Function.update_of_ne ha, List.mem_cons]
      have : (s = a ∨ s ∈ l) ↔ s ∈ l := by
        constructor
        · rintro (rfl | h)
          · exact absurd rfl ha
          · exact h
        · exact Or.inr
      simp only [this]
      omega

theorem freeCount_update {V : Nat → Int} {s : Nat} {v : Int} (hv : v ≠ -1) (hs : V s = -1)
    (hlt : s < size) : freeCount size (Function.update V s v) + 1 = freeCount size V := by
  have := countP_update (List.range size) List.nodup_range V s v hv hs
  simpa [freeCount, hlt] using this

theorem freeCount_writeAll : ∀ (ps : List (Nat × κ)) (V : Nat → Int),
    (∀ p ∈ ps, p.1 < size ∧ V p.1 = -1 ∧ dict p.2 ≠ -1) → (ps.map Prod.fst).Nodup →
    freeCount size (writeAll Prod.fst (fun p => dict p.2) ps V) + ps.length
      = freeCount size V := by
  intro ps
  induction ps with
  | nil => intro V _ _; simp [writeAll]
  | cons p ps ih =>
    intro V hp hn
    rw [List.map_cons, List.nodup_cons] at hn
    obtain ⟨q1, q2, q3⟩ := hp p (by simp)
    have := ih (Function.update V p.1 (dict p.2)) (by
      intro q hq
      obtain ⟨r1, r2, r3⟩ := hp q (by simp [hq])
      refine ⟨r1, ?_, r3⟩
      rw [Function.update_of_ne]; exact r2
      intro he; exact hn.1 (he ▸ List.mem_map_of_mem hq)) hn.2
    have h2 := freeCount_update (size := size) q3 q2 q1
    have h3 : writeAll Prod.fst (fun p : Nat × κ => dict p.2) (p :: ps) V =
      writeAll Prod.fst (fun p => dict p.2) ps (Function.update V p.1 (dict p.2)) := rfl
    rw [h3, List.length_cons]
    omega

/-- Position in `V` where the lookup reads. -/
def pos (h : BitVec 32 → κ → BitVec 32) (size : Nat) (t : Tables) (k : κ) : Nat :=
  let d := t.G (slot h size 0 k)
  if d < 0 then (-d - 1).toNat else slot h size d k

/-- State of the construction: `done` are the placed keys. -/
structure Inv (h : BitVec 32 → κ → BitVec 32) (size : Nat) (dict : κ → Int) (t : Tables)
    (done : List κ) (rest : List (List κ)) : Prop where
  placed : ∀ k ∈ done, pos h size t k < size ∧ t.V (pos h size t k) = dict k
  free : freeCount size t.V = (rest.map List.length).sum
  vals : ∀ s, t.V s = -1 ∨ ∃ k ∈ done, t.V s = dict k
  neg : ∀ b, t.G b < 0 → (-t.G b - 1).toNat < size

/-- Keys of one bucket agree on the first hash, keys of different buckets differ. -/
def Bucketed (h : BitVec 32 → κ → BitVec 32) (size : Nat) (bs : List (List κ)) : Prop :=
  (∀ b ∈ bs, ∀ k ∈ b, ∀ k' ∈ b, slot h size 0 k = slot h size 0 k') ∧
  bs.Pairwise fun b c => ∀ k ∈ b, ∀ k' ∈ c, slot h size 0 k ≠ slot h size 0 k'

def Apart (h : BitVec 32 → κ → BitVec 32) (size : Nat) (done : List κ) (bs : List (List κ)) :
    Prop := ∀ k ∈ done, ∀ b ∈ bs, ∀ k' ∈ b, slot h size 0 k ≠ slot h size 0 k'

theorem zip_map_self (f : κ → Nat) (l : List κ) : (l.map f).zip l = l.map fun k => (f k, k) := by
  induction l with
  | nil => rfl
  | cons a l ih => simp [ih]

theorem inv_placeBucket (hs : 0 < size) {t : Tables} {done : List κ} {b0 : κ} {bucket : List κ}
    {rest : List (List κ)} (hd : ∀ k, 0 ≤ dict k)
    (inv : Inv h size dict t done (bucket :: rest)) (hb0 : b0 ∈ bucket)
    (hap : Apart h size done (bucket :: rest))
    (hsame : ∀ k ∈ bucket, ∀ k' ∈ bucket, slot h size 0 k = slot h size 0 k')
    {hval : Int} (hpos : 1 ≤ hval) {slots : List Nat}
    (ht : tryBucket h size hval t.V bucket [] = some slots) :
    Inv h size dict (placeBucket h size dict t b0 bucket hval slots) (done ++ bucket) rest := by
  obtain ⟨e1, e2, e3⟩ := tryBucket_spec bucket [] slots ht List.nodup_nil
  simp only [List.nil_append] at e1
  subst e1
  have hzip := zip_map_self (slot h size hval) bucket
  have hne : ∀ k, dict k ≠ -1 := fun k => by have := hd k; omega
  set t' := placeBucket h size dict t b0 bucket hval (bucket.map (slot h size hval)) with ht'
  have hG : t'.G = Function.update t.G (slot h size 0 b0) hval := rfl
  have hV : t'.V = writeAll Prod.fst (fun p => dict p.2)
      (bucket.map fun k => (slot h size hval k, k)) t.V := by rw [← hzip]; rfl
  have hkeep : ∀ s, t.V s ≠ -1 → t'.V s = t.V s := by
    intro s hsn
    rw [hV]
    apply writeAll_notin
    intro a ha he
    simp only [List.mem_map] at ha
    obtain ⟨k, hk, rfl⟩ := ha
    simp only at he
    exact hsn (he ▸ e3 k hk)
  have hnew : ∀ k ∈ bucket, t'.V (slot h size hval k) = dict k := by
    intro k hk
    rw [hV]
    have := writeAll_mem (Prod.fst : Nat × κ → Nat) (fun p => dict p.2)
      (bucket.map fun k => (slot h size hval k, k)) t.V (slot h size hval k, k)
      (List.mem_map_of_mem hk) (by
        intro b hb he
        simp only [List.mem_map] at hb
        obtain ⟨k2, hk2, rfl⟩ := hb
        simp only at he ⊢
        rw [List.inj_on_of_nodup_map e2 hk2 hk he])
    exact this
  constructor
  · intro k hk
    rcases List.mem_append.1 hk with hk | hk
    · obtain ⟨p1, p2⟩ := inv.placed k hk
      have hd' : slot h size 0 k ≠ slot h size 0 b0 := hap k hk bucket (by simp) b0 hb0
      have hpe : pos h size t' k = pos h size t k := by
        unfold pos
        rw [hG, Function.update_of_ne hd']
      rw [hpe]
      refine ⟨p1, ?_⟩
      rw [hkeep _ (by rw [p2]; exact hne k), p2]
    · have hg : t'.G (slot h size 0 k) = hval := by
        rw [hG, hsame k hk b0 hb0, Function.update_self]
      have hpe : pos h size t' k = slot h size hval k := by
        unfold pos
        rw [hg, if_neg (by omega)]
      rw [hpe]
      exact ⟨slot_lt hs _ _, hnew k hk⟩
  · have h1 := freeCount_writeAll (size := size) (dict := dict)
      (bucket.map fun k => (slot h size hval k, k)) t.V (by
        intro p hp
        simp only [List.mem_map] at hp
        obtain ⟨k, hk, rfl⟩ := hp
        exact ⟨slot_lt hs _ _, e3 k hk, hne k⟩) (by
        rw [List.map_map]; exact e2)
    rw [← hV, inv.free] at h1
    simp at h1
    omega
  · intro s
    rcases inv.vals s with hv | ⟨k, hk, hv⟩
    · by_cases hm : ∃ k ∈ bucket, slot h size hval k = s
      · obtain ⟨k, hk, rfl⟩ := hm
        exact Or.inr ⟨k, by simp [hk], hnew k hk⟩
      · left
        rw [hV, writeAll_notin, hv]
        intro a ha he
        simp only [List.mem_map] at ha
        obtain ⟨k, hk, rfl⟩ := ha
        exact hm ⟨k, hk, he⟩
    · right
      refine ⟨k, by simp [hk], ?_⟩
      rw [hkeep s (by rw [hv]; exact hne k), hv]
  · intro b hb
    rw [hG] at hb ⊢
    by_cases he : b = slot h size 0 b0
    · subst he; rw [Function.update_self] at hb; omega
    · rw [Function.update_of_ne he] at hb ⊢; exact inv.neg b hb

theorem inv_placeLarge (hs : 0 < size) (hd : ∀ k, 0 ≤ dict k) (fuel : Nat) :
    ∀ (bs : List (List κ)) (t : Tables) (done : List κ), Inv h size dict t done bs →
    Bucketed h size bs → Apart h size done bs → bs.Pairwise (fun a b => b.length ≤ a.length) →
    ∀ t' rest, placeLarge h size dict fuel bs t = some (t', rest) →
    ∃ done', Inv h size dict t' done' rest ∧ Bucketed h size rest ∧ Apart h size done' rest ∧
      rest.Pairwise (fun a b => b.length ≤ a.length) ∧ (∀ b ∈ rest, b.length ≤ 1) ∧
      (∀ k, (k ∈ done ∨ ∃ b ∈ bs, k ∈ b) ↔ (k ∈ done' ∨ ∃ b ∈ rest, k ∈ b)) := by
  intro bs
  induction bs with
  | nil =>
    intro t done inv hb ha hp t' rest hr
    simp [placeLarge] at hr
    obtain ⟨rfl, rfl⟩ := hr
    exact ⟨done, inv, hb, ha, hp, by simp, by simp⟩
  | cons b bs ih =>
    intro t done inv hb ha hp t' rest hr
    have small : b.length ≤ 1 → some (t, b :: bs) = some (t', rest) →
        ∃ done', Inv h size dict t' done' rest ∧ Bucketed h size rest ∧
          Apart h size done' rest ∧ rest.Pairwise (fun a b => b.length ≤ a.length) ∧
          (∀ c ∈ rest, c.length ≤ 1) ∧
          (∀ k, (k ∈ done ∨ ∃ c ∈ b :: bs, k ∈ c) ↔ (k ∈ done' ∨ ∃ c ∈ rest, k ∈ c)) := by
      intro hl he
      simp only [Option.some.injEq, Prod.mk.injEq] at he
      obtain ⟨rfl, rfl⟩ := he
      refine ⟨done, inv, hb, ha, hp, ?_, fun k => Iff.rfl⟩
      intro c hc
      rcases List.mem_cons.1 hc with rfl | hc
      · exact hl
      · exact le_trans ((List.pairwise_cons.1 hp).1 c hc) hl
    rcases b with _ | ⟨k, _ | ⟨k', ks⟩⟩
    · exact small (by simp) hr
    · exact small (by simp) hr
    · clear small
      simp only [placeLarge] at hr
      split at hr
      · cases hr
      · rename_i hval slots hse
        obtain ⟨s1, s2⟩ := searchHval_spec _ _ _ hse
        have hb1 : ∀ x ∈ (k :: k' :: ks), ∀ y ∈ (k :: k' :: ks),
            slot h size 0 x = slot h size 0 y := hb.1 _ (by simp)
        have inv' := inv_placeBucket hs hd inv (b0 := k) (by simp) ha hb1 s1 s2
        have hbp := List.pairwise_cons.1 hb.2
        obtain ⟨done', i1, i2, i3, i4, i5, i6⟩ := ih _ (done ++ (k :: k' :: ks)) inv'
          ⟨fun c hc => hb.1 c (by simp [hc]), hbp.2⟩ (by
            intro x hx c hc y hy
            rcases List.mem_append.1 hx with hx | hx
            · exact ha x hx c (by simp [hc]) y hy
            · exact hbp.1 c hc x hx y hy) (List.pairwise_cons.1 hp).2 t' rest hr
        refine ⟨done', i1, i2, i3, i4, i5, ?_⟩
        intro x
        rw [← i6]
        simp only [List.mem_append, List.mem_cons, exists_eq_or_imp]
        tauto

theorem sum_length_nil : ∀ bs : List (List κ), (∀ c ∈ bs, c = []) →
    (bs.map List.length).sum = 0
  | [], _ => rfl
  | c :: bs, hall => by
    simp [hall c (by simp), sum_length_nil bs (fun d hd => hall d (by simp [hd]))]

theorem inv_placeSingle (hs : 0 < size) (hd : ∀ k, 0 ≤ dict k) :
    ∀ (bs : List (List κ)) (free : List Nat) (t : Tables) (done : List κ),
    Inv h size dict t done bs → Bucketed h size bs → Apart h size done bs →
    bs.Pairwise (fun a b => b.length ≤ a.length) → (∀ b ∈ bs, b.length ≤ 1) →
    free.Nodup → (∀ s, s ∈ free ↔ s < size ∧ t.V s = -1) →
    ∃ t' done', placeSingle h size dict bs free t = some t' ∧ Inv h size dict t' done' [] ∧
      (∀ k, (k ∈ done ∨ ∃ b ∈ bs, k ∈ b) ↔ k ∈ done') := by
  intro bs
  induction bs with
  | nil =>
    intro free t done inv _ _ _ _ _ _
    exact ⟨t, done, by simp [placeSingle], inv, by simp⟩
  | cons b bs ih =>
    intro free t done inv hb ha hp h1 hn hf
    match b, inv, hb, ha, hp, h1 with
    | [], inv, hb, ha, hp, h1 =>
      have hall : ∀ c ∈ bs, c = [] := by
        intro c hc
        have := (List.pairwise_cons.1 hp).1 c hc
        exact List.eq_nil_of_length_eq_zero (by simpa using this)
      refine ⟨t, done, by simp [placeSingle], ⟨inv.placed, ?_, inv.vals, inv.neg⟩, ?_⟩
      · rw [inv.free]
        simp only [List.map_cons, List.length_nil, List.sum_cons, List.map_nil, List.sum_nil,
          Nat.zero_add]
        exact sum_length_nil bs hall
      · intro k
        constructor
        · rintro (hk | ⟨c, hc, hk⟩)
          · exact hk
          · rcases List.mem_cons.1 hc with rfl | hc
            · simp at hk
            · rw [hall c hc] at hk; simp at hk
        · exact Or.inl
    | k :: ks, inv, hb, ha, hp, h1 =>
      have hks : ks = [] := by
        have := h1 (k :: ks) (by simp)
        exact List.eq_nil_of_length_eq_zero (by simpa using this)
      subst hks
      cases free with
      | nil =>
        exfalso
        have hfr := inv.free
        have : freeCount size t.V = 0 := by
          unfold freeCount
          rw [List.countP_eq_zero]
          intro s hs' hv
          have := (hf s).2 ⟨by simpa using hs', by simpa using hv⟩
          simp at this
        simp at hfr
        omega
      | cons s free =>
        obtain ⟨hslt, hsv⟩ := (hf s).1 (by simp)
        rw [List.nodup_cons] at hn
        have hne : ∀ k, dict k ≠ -1 := fun k => by have := hd k; omega
        set t1 : Tables := { G := Function.update t.G (slot h size 0 k) (-(s : Int) - 1)
                             V := Function.update t.V s (dict k) } with ht1
        have hbp := List.pairwise_cons.1 hb.2
        have hgk : t1.G (slot h size 0 k) = -(s : Int) - 1 := by simp [ht1]
        have hpk : pos h size t1 k = s := by
          unfold pos
          rw [hgk, if_pos (by omega)]; omega
        have inv1 : Inv h size dict t1 (done ++ [k]) bs := by
          constructor
          · intro x hx
            rcases List.mem_append.1 hx with hx | hx
            · obtain ⟨p1, p2⟩ := inv.placed x hx
              have hd' : slot h size 0 x ≠ slot h size 0 k := ha x hx [k] (by simp) k (by simp)
              have hpe : pos h size t1 x = pos h size t x := by
                unfold pos
                simp only [ht1, Function.update_of_ne hd']
              rw [hpe]
              refine ⟨p1, ?_⟩
              simp only [ht1]
              rw [Function.update_of_ne, p2]
              intro he; rw [he, hsv] at p2; exact hne x p2.symm
            · simp at hx; subst hx
              rw [hpk]; exact ⟨hslt, by simp [ht1]⟩
          · have := freeCount_update (size := size) (hne k) hsv hslt
            have hfr := inv.free
            simp only [List.map_cons, List.length_cons, List.length_nil, List.sum_cons] at hfr
            simp only [ht1]; omega
          · intro s'
            simp only [ht1]
            by_cases he : s' = s
            · subst he; right; exact ⟨k, by simp, by simp⟩
            · rw [Function.update_of_ne he]
              rcases inv.vals s' with hv | ⟨x, hx, hv⟩
              · exact Or.inl hv
              · exact Or.inr ⟨x, by simp [hx], hv⟩
          · intro b hb
            simp only [ht1] at hb ⊢
            by_cases he : b = slot h size 0 k
            · subst he; rw [Function.update_self]; omega
            · rw [Function.update_of_ne he] at hb ⊢; exact inv.neg b hb
        obtain ⟨t', done', r1, r2, r3⟩ := ih free t1 (done ++ [k]) inv1
          ⟨fun c hc => hb.1 c (by simp [hc]), hbp.2⟩ (by
            intro x hx c hc y hy
            rcases List.mem_append.1 hx with hx | hx
            · exact ha x hx c (by simp [hc]) y hy
            · exact hbp.1 c hc x hx y hy) (List.pairwise_cons.1 hp).2
          (fun c hc => h1 c (by simp [hc])) hn.2 (by
            intro s'
            by_cases he : s' = s
            · subst he
              simp only [ht1, Function.update_self, hne, and_false, iff_false]
              exact hn.1
            · simp only [ht1, Function.update_of_ne he]
              rw [← hf s', List.mem_cons]; simp [he])
        refine ⟨t', done', by simpa [placeSingle] using r1, r2, ?_⟩
        intro x
        rw [← r3]
        simp only [List.mem_append, List.mem_cons, exists_eq_or_imp]
        simp
        tauto

theorem sum_buckets_aux (f : κ → Nat) (n : Nat) : ∀ keys : List κ, (∀ k ∈ keys, f k < n) →
    (((List.range n).map fun b => keys.filter fun k => f k = b).map List.length).sum
      = keys.length := by
  intro keys
  induction keys with
  | nil => intro _; simp
  | cons k keys ih =>
    intro hk
    have h1 := ih (fun x hx => hk x (by simp [hx]))
    have hkn := hk k (by simp)
    rw [List.length_cons, ← h1]
    simp only [List.map_map, Function.comp_def, List.filter_cons]
    have : ∀ l : List Nat, l.Nodup →
        (l.map fun b => (if decide (f k = b) = true then k :: keys.filter fun k => f k = b
          else keys.filter fun k => f k = b).length).sum
        = (l.map fun b => (keys.filter fun k => f k = b).length).sum
          + if f k ∈ l then 1 else 0 := by
      intro l
      induction l with
      | nil => intro _; simp
      | cons a l ihl =>
        intro hn
        rw [List.nodup_cons] at hn
        have := ihl hn.2
        simp only [List.map_cons, List.sum_cons]
        rw [this]
        by_cases ha : f k = a
        · subst ha
          simp [hn.1]; omega
        · simp [ha]; omega
    rw [this _ List.nodup_range]
    simp [hkn]

theorem bucketed_buckets (keys : List κ) : Bucketed h size (buckets h size keys) := by
  constructor
  · intro b hb k hk k' hk'
    simp only [buckets, List.mem_map] at hb
    obtain ⟨i, _, rfl⟩ := hb
    simp only [List.mem_filter, decide_eq_true_eq] at hk hk'
    rw [hk.2, hk'.2]
  · rw [buckets, List.pairwise_map]
    refine List.Pairwise.imp ?_ List.nodup_range
    intro a b hab k hk k' hk'
    simp only [List.mem_filter, decide_eq_true_eq] at hk hk'
    rw [hk.2, hk'.2]; exact hab

theorem bucketed_perm {bs bs' : List (List κ)} (hp : bs'.Perm bs) (hb : Bucketed h size bs) :
    Bucketed h size bs' := by
  refine ⟨fun b hb' => hb.1 b (hp.mem_iff.1 hb'), ?_⟩
  refine (List.Perm.pairwise_iff ?_ hp).2 hb.2
  intro a b hab k hk k' hk'
  exact (hab k' hk' k hk).symm

/-- Result of a finished construction. -/
theorem build_inv (keys : List κ) (hs : 0 < keys.length) (hd : ∀ k, 0 ≤ dict k) {fuel : Nat}
    {bs : List (List κ)} (hsort : SortedBuckets (buckets h keys.length keys) bs) {t : Tables}
    (hb : build h keys.length dict fuel bs = some t) :
    ∃ done, Inv h keys.length dict t done [] ∧ ∀ k, k ∈ done ↔ k ∈ keys := by
  have hbk := bucketed_perm hsort.1 (bucketed_buckets (h := h) (size := keys.length) keys)
  have inv0 : Inv h keys.length dict Tables.init [] bs := by
    constructor
    · simp
    · have h1 := sum_buckets_aux (slot h keys.length 0) keys.length keys
        (fun k _ => slot_lt hs _ _)
      have h2 : (bs.map List.length).sum = ((buckets h keys.length keys).map List.length).sum :=
        (hsort.1.map _).sum_nat
      rw [h2, buckets, h1]
      simp [freeCount, Tables.init]
    · intro s; exact Or.inl rfl
    · intro b hb; simp [Tables.init] at hb
  unfold build at hb
  split at hb
  · cases hb
  · rename_i t1 rest hl
    obtain ⟨done1, i1, i2, i3, i4, i5, i6⟩ := inv_placeLarge hs hd fuel bs Tables.init [] inv0 hbk
      (by intro k hk; simp at hk) hsort.2 t1 rest hl
    obtain ⟨t', done', r1, r2, r3⟩ := inv_placeSingle hs hd rest (freeList keys.length t1) t1 done1
      i1 i2 i3 i4 i5 (by
        rw [freeList, List.nodup_reverse]; exact List.nodup_range.filter _) (by
        intro s; simp [freeList])
    rw [r1] at hb
    cases hb
    refine ⟨done', r2, ?_⟩
    intro k
    rw [← r3, ← i6]
    simp only [List.not_mem_nil, false_or]
    constructor
    · rintro ⟨b, hb, hk⟩
      have := hsort.1.mem_iff.1 hb
      simp only [buckets, List.mem_map] at this
      obtain ⟨i, _, rfl⟩ := this
      exact (List.mem_filter.1 hk).1
    · intro hk
      refine ⟨keys.filter fun x => slot h keys.length 0 x = slot h keys.length 0 k, ?_, ?_⟩
      · apply hsort.1.mem_iff.2
        simp only [buckets, List.mem_map, List.mem_range]
        exact ⟨_, slot_lt hs _ _, rfl⟩
      · simp [hk]

theorem findIndex_of_inv {t : Tables} {done : List κ} (hs : 0 < size)
    (inv : Inv h size dict t done []) (hr : ∀ k ∈ done, 0 ≤ dict k ∧ dict k < size) {ν : Type}
    (h2 : BitVec 32 → ν → BitVec 32) (q : ν) :
    pos h2 size t q < size ∧ (∃ k ∈ done, t.V (pos h2 size t q) = dict k) ∧
      findIndex h2 size t q = some (t.V (pos h2 size t q)) := by
  have hp : pos h2 size t q < size := by
    unfold pos
    simp only
    split
    · rename_i hd; exact inv.neg _ hd
    · exact slot_lt hs _ _
  have hv : ∃ k ∈ done, t.V (pos h2 size t q) = dict k := by
    rcases inv.vals (pos h2 size t q) with hv | hv
    · exfalso
      have := inv.free
      simp only [List.map_nil, List.sum_nil, freeCount, List.countP_eq_zero] at this
      have := this (pos h2 size t q) (by simpa using hp)
      simp [hv] at this
    · exact hv
  refine ⟨hp, hv, ?_⟩
  obtain ⟨k, hk, he⟩ := hv
  have := hr k hk
  have hcond : pos h2 size t q < size ∧ 0 ≤ t.V (pos h2 size t q) ∧
      t.V (pos h2 size t q) < size := by rw [he]; exact ⟨hp, this⟩
  unfold findIndex
  exact if_pos hcond

end

theorem prime_toNat : prime.toNat = 16777619 := by simp [prime]

/-- Only the lowest bits matter for the slot in a dictionary of two entries. -/
theorem hashBytes_lsb (hval : BitVec 32) (str : List Byte) :
    (hashBytes hval str).getLsbD 0 =
      str.foldl (fun b c => b ^^ c.getLsbD 0) ((if hval = 0 then prime else hval).getLsbD 0) := by
  unfold hashBytes
  generalize (if hval = 0 then prime else hval) = h0
  induction str generalizing h0 with
  | nil => rfl
  | cons c str ih =>
    rw [List.foldl_cons, ih, List.foldl_cons]
    congr 1
    have hm : (h0 * prime).getLsbD 0 = h0.getLsbD 0 := by
      rw [← BitVec.testBit_toNat, ← BitVec.testBit_toNat, Nat.testBit_zero, Nat.testBit_zero,
        BitVec.toNat_mul, prime_toNat]
      generalize h0.toNat = n
      have : n * 16777619 % 2 ^ 32 % 2 = n % 2 := by omega
      rw [this]
    rw [BitVec.getLsbD_xor, hm]
    congr 1
    rw [BitVec.getLsbD_signExtend]; simp

end Verif.Hash
