import Verif.Proofs.ParArgSort
/-
Property theorems C20-C23 for the parallel argsort (np.argsort and lexsort of 65536 keys or more).
-/
namespace Pnumpy.Props
open Spec Pnumpy.Sort Pnumpy.ParSort

/-- The states of a parallel argsort of the keys `v`, starting from the index array `ix`: any number of threads, any
interleaving; `w` is the arbitrary initial content of the workspace. -/
def ParArgRun (t : DT) (k : Kind) (v : List (BitVec t.bits)) (ix w : List Nat) (s : PS Nat) : Prop :=
  Reach (leafArg (opsArg t) k v) (parMerge (indirect (opsArg t).lt v)) ix.length none (init ix w) s

theorem goodIx_of {t : DT} {v : List (BitVec t.bits)} (h : ∀ x ∈ v, value t x ≠ .nan) {i : Nat} (hi : i < v.length) :
    GoodIx (opsArg t) v i :=
  ⟨v[i], List.getElem?_eq_getElem hi, by
    rw [Bool.eq_false_iff, ne_eq, opsArg_isNaN]; exact h _ (List.getElem_mem hi)⟩

/-- The common part: invariant of the parallel argsort. -/
theorem parArg_inv (t : DT) (k : Kind) (v : List (BitVec t.bits)) (ix w : List Nat) (hix : ∀ i ∈ ix, i < v.length)
    (hw : w.length = 8 * (ix.length / 16 + 1)) (hn : 65536 ≤ ix.length) (hn' : ix.length < 2 ^ 63)
    (hk : k ≠ .merge ∨ ∀ x ∈ v, value t x ≠ .nan) (s : PS Nat) (hr : ParArgRun t k v ix w s) :
    Inv ix.length (onNode ix.length ix (Sorted3 (keyLt (opsArg t).lt v) k)) none ix s :=
  reach_inv ((arg_contract (opsArg_ok t) k v hn').node rfl
    (fun i hi => ⟨hix i hi, fun h => goodIx_of (hk.resolve_left (fun h' => h' h)) (hix i hi)⟩)) (by omega) rfl
    (fun _ h => by cases h) (inv_init w _ rfl hw (fun _ => rfl)) hr

/-- C20/C22 (partial: a merge argsort needs keys without NaN, see `C20_merge_nan_violated`): the parallel argsort
returns a permutation of the indices along which the keys ascend. -/
theorem C22_parallel_argsort_partial (t : DT) (k : Kind) (v : List (BitVec t.bits)) (w : List Nat)
    (hw : w.length = 8 * (v.length / 16 + 1)) (hn : 65536 ≤ v.length) (hn' : v.length < 2 ^ 63)
    (hb : t = .bool → ∀ x ∈ v, x.toNat ≤ 1) (hk : k ≠ .merge ∨ ∀ x ∈ v, value t x ≠ .nan)
    (s : PS Nat) (hr : ParArgRun t k v (List.range v.length) w s) (hdone : s.completed = 8) :
    IsArgsort (before t) (keyOf v) v.length s.a := by
  have h := (parArg_inv t k v (List.range v.length) w (fun i hi => List.mem_range.1 hi) (by simpa using hw) (by simpa using hn)
    (by simpa using hn') hk s hr).sorted rfl hdone
  exact ⟨h.1, (ascending_iff (keyLt_iff v hb) _).1 h.2.1⟩

/-- C21/C22 (partial: same restriction): the parallel merge argsort keeps equal keys in their original order, whatever
the schedule. -/
theorem C22_parallel_argsort_stable_partial (t : DT) (v : List (BitVec t.bits)) (w : List Nat)
    (hw : w.length = 8 * (v.length / 16 + 1)) (hn : 65536 ≤ v.length) (hn' : v.length < 2 ^ 63)
    (hb : t = .bool → ∀ x ∈ v, x.toNat ≤ 1) (hk : ∀ x ∈ v, value t x ≠ .nan)
    (s : PS Nat) (hr : ParArgRun t .merge v (List.range v.length) w s) (hdone : s.completed = 8) :
    IsStableArgsort (before t) (keyOf v) v.length s.a := by
  have h := (parArg_inv t .merge v (List.range v.length) w (fun i hi => List.mem_range.1 hi) (by simpa using hw)
    (by simpa using hn) (by simpa using hn') (Or.inr hk) s hr).sorted rfl hdone
  refine ⟨h.1, ((h.2.2 rfl).stableArg (keyLt_swo (opsArg_ok t).swo v)).imp fun {i j} h => ?_⟩
  rw [Bool.eq_false_iff, ne_eq, Bool.eq_false_iff, ne_eq, keyLt_iff v hb, keyLt_iff v hb] at h
  exact h

/-- C22 (partial: same restriction): serial and parallel merge argsort return the same index array. -/
theorem C22_parallel_argsort_equals_serial_partial (t : DT) (v : List (BitVec t.bits)) (w w1 : List Nat)
    (hw : w.length = 8 * (v.length / 16 + 1)) (hw1 : w1.length = v.length / 2) (hn : 65536 ≤ v.length) (hn' : v.length < 2 ^ 63)
    (hk : ∀ x ∈ v, value t x ≠ .nan)
    (s : PS Nat) (hr : ParArgRun t .merge v (List.range v.length) w s) (hdone : s.completed = 8) :
    argsortSerial (opsArg t) .merge v (List.range v.length) w1 = some s.a := by
  have h := (parArg_inv t .merge v (List.range v.length) w (fun i hi => List.mem_range.1 hi) (by simpa using hw)
    (by simpa using hn) (by simpa using hn') (Or.inr hk) s hr).sorted rfl hdone
  obtain ⟨ix, h1, _, _, h4⟩ := argsort_general (opsArg_ok t) .merge v w1 hw1 hn'
    (Or.inr (Or.inr fun x hx => by rw [Bool.eq_false_iff, ne_eq, opsArg_isNaN]; exact hk x hx))
  rw [h1, SS.eq (keyLt_swo (opsArg_ok t).swo v) (h.2.2 rfl) (h4 rfl)]

/-- C20/C22: whatever the keys (NaNs included), the parallel argsort returns each index exactly once. -/
theorem C22_parallel_argsort_permutation (t : DT) (k : Kind) (v : List (BitVec t.bits)) (w : List Nat)
    (hw : w.length = 8 * (v.length / 16 + 1)) (hn : 65536 ≤ v.length) (hn' : v.length < 2 ^ 63)
    (s : PS Nat) (hr : ParArgRun t k v (List.range v.length) w s) (hdone : s.completed = 8) :
    s.a.Perm (List.range v.length) :=
  (reach_inv ((arg_perm_contract (opsArg_ok t) k v (by simpa using hn')).node rfl fun i hi => List.mem_range.1 hi)
    (by rw [List.length_range]; omega) rfl
    (fun _ h => by cases h) (inv_init w _ rfl (by rw [hw, List.length_range]; rfl) (fun _ => rfl)) hr).sorted rfl hdone

/-- C22/C03: whatever the keys, every run of the parallel argsort can be completed. -/
theorem C22_parallel_argsort_completes (t : DT) (k : Kind) (v : List (BitVec t.bits)) (w : List Nat)
    (hw : w.length = 8 * (v.length / 16 + 1)) (hn : 65536 ≤ v.length) (hn' : v.length < 2 ^ 63)
    (s : PS Nat) (hr : ParArgRun t k v (List.range v.length) w s) :
    ∃ s', ParArgRun t k v (List.range v.length) w s' ∧
      Reach (leafArg (opsArg t) k v) (parMerge (indirect (opsArg t).lt v)) (List.range v.length).length none s s' ∧ s'.completed = 8 :=
  exists_complete ((arg_perm_contract (opsArg_ok t) k v (by simpa using hn')).node rfl fun i hi => List.mem_range.1 hi)
    (by rw [List.length_range]; omega) rfl (fun _ h => by cases h)
    (inv_init w _ rfl (by rw [hw, List.length_range]; rfl) (fun _ => rfl)) hr

/-- C23: running tasks of the parallel argsort own disjoint ranges of the index array and of the workspace. -/
theorem C23_argsort_disjoint (t : DT) (k : Kind) (v : List (BitVec t.bits)) (w : List Nat)
    (hw : w.length = 8 * (v.length / 16 + 1)) (hn : 65536 ≤ v.length) (hn' : v.length < 2 ^ 63)
    (s : PS Nat) (hr : ParArgRun t k v (List.range v.length) w s) (l j l' j' : Nat) (p p' : List Nat)
    (h : s.st (l, j) = .running p) (h' : s.st (l', j') = .running p') (hne : (l, j) ≠ (l', j')) :
    nodeHi v.length l j ≤ v.length ∧ nodeWs v.length l (j + 1) ≤ 8 * (v.length / 16 + 1) ∧
    (nodeHi v.length l j ≤ nodeLo v.length l' j' ∨ nodeHi v.length l' j' ≤ nodeLo v.length l j) ∧
    (nodeWs v.length l (j + 1) ≤ nodeWs v.length l' j' ∨ nodeWs v.length l' (j' + 1) ≤ nodeWs v.length l j) := by
  have i := reach_inv ((arg_perm_contract (opsArg_ok t) k v (by simpa using hn')).node rfl fun i hi => List.mem_range.1 hi)
    (by rw [List.length_range]; omega) rfl (fun _ h => by cases h)
    (inv_init w _ rfl (by rw [hw, List.length_range]; rfl) (fun _ => rfl)) hr
  have hv := i.tree.valid l j (by rw [h]; exact fun h => by cases h)
  exact ⟨nodeHi_le hv, nodeWs_le hv, i.tree.disjoint (Or.inr (Or.inl ⟨p, h⟩)) (Or.inr (Or.inl ⟨p', h'⟩)) hne⟩

/-- C23: the function of a running argsort task returns and changes only the task's own ranges. -/
theorem C23_argsort_task_stays_inside (t : DT) (k : Kind) (v : List (BitVec t.bits)) (w : List Nat)
    (hw : w.length = 8 * (v.length / 16 + 1)) (hn : 65536 ≤ v.length) (hn' : v.length < 2 ^ 63)
    (s : PS Nat) (hr : ParArgRun t k v (List.range v.length) w s) (l j : Nat) (p : List Nat)
    (h : s.st (l, j) = .running p) :
    ∃ a' w', body (leafArg (opsArg t) k v) (parMerge (indirect (opsArg t).lt v)) v.length l j (splice s.a (nodeLo v.length l j) p) s.w
        = some (a', w') ∧
      Within (nodeLo v.length l j) (nodeHi v.length l j) a' s.a ∧
      Within (nodeWs v.length l j) (nodeWs v.length l (j + 1)) w' s.w := by
  have i := reach_inv ((arg_perm_contract (opsArg_ok t) k v (by simpa using hn')).node rfl fun i hi => List.mem_range.1 hi)
    (by rw [List.length_range]; omega) rfl (fun _ h => by cases h)
    (inv_init w _ rfl (by rw [hw, List.length_range]; rfl) (fun _ => rfl)) hr
  have hv := i.tree.valid l j (by rw [h]; exact fun h => by cases h)
  obtain ⟨a', w', h1, h2, h3, _⟩ := body_ok ((arg_perm_contract (opsArg_ok t) k v (by simpa using hn')).node rfl fun i hi => List.mem_range.1 hi)
    (by rw [List.length_range]; omega) rfl i.content hv h
  rw [List.length_range] at h1 h2 h3
  exact ⟨a', w', h1, h2, h3⟩

/-- A completed parallel argsort of 70000 doubles exists, and it is a stable argsort. -/
example : ∃ s, ParArgRun .f64 .merge (List.replicate 70000 0) (List.range 70000) (List.replicate (8 * (70000 / 16 + 1)) 0) s ∧
    IsStableArgsort (before .f64) (keyOf (List.replicate 70000 0)) 70000 s.a := by
  have hl : (List.replicate 70000 (0 : BitVec DT.f64.bits)).length = 70000 := List.length_replicate
  have hw : (List.replicate (8 * (70000 / 16 + 1)) 0).length =
      8 * ((List.replicate 70000 (0 : BitVec DT.f64.bits)).length / 16 + 1) := by rw [hl, List.length_replicate]
  obtain ⟨s, h1, _, h2⟩ := C22_parallel_argsort_completes .f64 .merge (List.replicate 70000 0) _ hw
    (by rw [hl]; decide) (by rw [hl]; decide) _ .start
  have h3 := C22_parallel_argsort_stable_partial .f64 (List.replicate 70000 0) _ hw (by rw [hl]; decide) (by rw [hl]; decide)
    (fun h => by cases h) (fun x hx => by rw [(List.mem_replicate.1 hx).2]; decide) s h1 h2
  rw [hl] at h1 h3
  exact ⟨s, h1, h3⟩

/-- Cases of the three argsort theorems: a completed quicksort run on any 65536 or more float32 keys. -/
example (v : List (BitVec DT.f32.bits)) (hn : 65536 ≤ v.length) (hn' : v.length < 2 ^ 63) :
    ∃ s, ParArgRun .f32 .quick v (List.range v.length) (List.replicate (8 * (v.length / 16 + 1)) 0) s ∧
      s.a.Perm (List.range v.length) ∧ IsArgsort (before .f32) (keyOf v) v.length s.a := by
  obtain ⟨s, h1, _, h2⟩ := C22_parallel_argsort_completes .f32 .quick v (List.replicate (8 * (v.length / 16 + 1)) 0) List.length_replicate hn hn' _ .start
  exact ⟨s, h1, C22_parallel_argsort_permutation .f32 .quick v _ List.length_replicate hn hn' s h1 h2,
    C22_parallel_argsort_partial .f32 .quick v _ List.length_replicate hn hn' (fun h => by cases h) (Or.inl (by decide)) s h1 h2⟩

/-- Merge: 65536 or more int16 keys, the same array as the unthreaded sort. -/
example (v : List (BitVec DT.i16.bits)) (hn : 65536 ≤ v.length) (hn' : v.length < 2 ^ 63) :
    ∃ s, ParArgRun .i16 .merge v (List.range v.length) (List.replicate (8 * (v.length / 16 + 1)) 0) s ∧
      argsortSerial (opsArg .i16) .merge v (List.range v.length) (List.replicate (v.length / 2) 0) = some s.a := by
  obtain ⟨s, h1, _, h2⟩ := C22_parallel_argsort_completes .i16 .merge v (List.replicate (8 * (v.length / 16 + 1)) 0) List.length_replicate hn hn' _ .start
  exact ⟨s, h1, C22_parallel_argsort_equals_serial_partial .i16 v _ _ List.length_replicate List.length_replicate hn hn'
    (fun x _ => by simp [value]) s h1 h2⟩

end Pnumpy.Props
