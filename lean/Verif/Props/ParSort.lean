import Verif.Props.Sort
import Verif.Proofs.ParSortLive
/-
Property theorems C22, C23: the parallel sorts, under every schedule.
-/
namespace Pnumpy.Props
open Spec Pnumpy.Sort Pnumpy.ParSort

/-- What one segment holds after its sort: a sorted permutation, and for the merge sort the stable one. -/
def Sorted3 {α : Type} (lt : α → α → Bool) (k : Kind) (S' S : List α) : Prop :=
  S'.Perm S ∧ Asc lt S' ∧ (k = .merge → SS lt S' S)

theorem sorted3_merge {α : Type} {cmp : α → α → Option Bool} {lt : α → α → Bool} {P : α → Prop} (hc : Computes cmp lt P)
    (hs : SWO lt) (k : Kind) (A L R B W1 W W2 SL SR : List α) {pl len pw : Nat} (hL : Sorted3 lt k L SL)
    (hR : Sorted3 lt k R SR) (hPL : ∀ x ∈ SL, P x) (hPR : ∀ x ∈ SR, P x) (h1 : pl = A.length)
    (h2 : len = L.length + R.length) (h3 : pw = W1.length) (hhalf : L.length = len / 2) (hpos : 2 ≤ len)
    (hW : L.length ≤ W.length) :
    ∃ S' W', Sorted3 lt k S' (SL ++ SR) ∧ W'.length = W.length ∧
      parMerge cmp (A ++ L ++ R ++ B) (W1 ++ W ++ W2) pl len pw = some (A ++ S' ++ B, W1 ++ W' ++ W2) := by
  obtain ⟨S', W', e1, e2, e3⟩ := parMerge_ok hc hs A L R B W1 W W2 L R (SS.refl hL.2.1) (SS.refl hR.2.1)
    (fun x hx => hPL x (hL.1.mem_iff.1 hx)) (fun x hx => hPR x (hR.1.mem_iff.1 hx)) h1 h2 h3 hhalf hpos hW
  exact ⟨S', W', ⟨e1.perm.trans (hL.1.append hR.1), e1.asc, fun hk => SS.of_halves e1 (hL.2.2 hk) (hR.2.2 hk)⟩, e2, e3⟩

/-- The in-place sorts. `f` gives the (arbitrary) contents of the buffers that mergesort_ allocates. -/
theorem sort_contract (t : DT) (k : Kind) (f : Nat → List (BitVec t.bits)) (hf : ∀ m, (f m).length = m) {n : Nat}
    (hn : n < 2 ^ 63) :
    Contract (leafSort (ops t) k f) (parMerge (direct (ops t).lt)) n (Sorted3 (ops t).lt k) (fun _ => True) where
  perm h := h.1
  leaf_ok {j} A S B w hj hA hS hw _ := by
    have hv : Valid 0 j := ⟨by omega, by simpa using hj⟩
    have hhi := nodeHi_le (n := n) hv
    obtain ⟨S', h1, h2, h3, h4⟩ := sortFn_correct (opsOk t) k A S B (f (S.length / 2)) (hf _) (by omega)
    refine ⟨S', w, ?_, ⟨h2, h3, h4⟩, Within.refl _ _ _⟩
    unfold leafSort
    rw [← hS, ← hA, h1]; rfl
  merge_ok A L R B W1 W W2 SL SR pl len pw := sorted3_merge (computes_direct _) (opsOk t).swo k A L R B W1 W W2 SL SR

/-- Start of a parallel in-place sort of `a` (`out = none`), or of an out-of-place sort of `a` into `out`. -/
def startSort {α : Type} (a : List α) (out : Option (List α)) (w : List α) : PS α := init (out.getD a) w

/-- Source array of an out-of-place sort. -/
def srcOf {α : Type} (a : List α) (out : Option (List α)) : Option (List α) := out.map fun _ => a

/-- The states of a parallel sort of `a`: any number of threads, any interleaving. `w` and `f` are arbitrary
initial contents of the workspaces. -/
def ParRun (t : DT) (k : Kind) (f : Nat → List (BitVec t.bits)) (a : List (BitVec t.bits)) (out : Option (List (BitVec t.bits)))
    (w : List (BitVec t.bits)) (s : PS (BitVec t.bits)) : Prop :=
  Reach (leafSort (ops t) k f) (parMerge (direct (ops t).lt)) a.length (srcOf a out) (startSort a out w) s

theorem parRun_inv (t : DT) (k : Kind) (f : Nat → List (BitVec t.bits)) (hf : ∀ m, (f m).length = m)
    (a : List (BitVec t.bits)) (out : Option (List (BitVec t.bits))) (hout : ∀ b, out = some b → b.length = a.length)
    (w : List (BitVec t.bits)) (hw : w.length = 8 * (a.length / 16 + 1)) (hn : 65536 ≤ a.length) (hn' : a.length < 2 ^ 63)
    (s : PS (BitVec t.bits)) (hr : ParRun t k f a out w s) :
    Inv a.length (onNode a.length a (Sorted3 (ops t).lt k)) (srcOf a out) a s := by
  refine reach_inv ((sort_contract t k f hf hn').node rfl (fun _ _ => trivial)) (by omega) rfl ?_ ?_ hr
  · intro v hv
    cases out with
    | none => simp [srcOf] at hv
    | some b => simp [srcOf] at hv; exact hv.symm
  · refine inv_init w _ ?_ hw ?_
    · cases out with
      | none => rfl
      | some b => exact hout b rfl
    · intro h
      cases out with
      | none => rfl
      | some b => simp [srcOf] at h

/-- C22: when all eight blocks of a parallel sort are complete (which is when the call returns, C02), the array is
a sorted permutation of the input: for every element type, sort kind, length, number of threads and schedule. -/
theorem C22_parallel_sort (t : DT) (k : Kind) (f : Nat → List (BitVec t.bits)) (hf : ∀ m, (f m).length = m)
    (a : List (BitVec t.bits)) (out : Option (List (BitVec t.bits))) (hout : ∀ b, out = some b → b.length = a.length)
    (w : List (BitVec t.bits)) (hw : w.length = 8 * (a.length / 16 + 1)) (hn : 65536 ≤ a.length) (hn' : a.length < 2 ^ 63)
    (s : PS (BitVec t.bits)) (hr : ParRun t k f a out w s) (hdone : s.completed = 8) :
    IsSortOf (before t) s.a a := by
  have h := (parRun_inv t k f hf a out hout w hw hn hn' s hr).sorted rfl hdone
  exact ⟨h.1, (ascending_iff (ops_lt_iff t) _).1 h.2.1⟩

/-- C22: the parallel merge sort gives bit for bit what the serial one gives. -/
theorem C22_parallel_equals_serial (t : DT) (f : Nat → List (BitVec t.bits)) (hf : ∀ m, (f m).length = m)
    (a : List (BitVec t.bits)) (out : Option (List (BitVec t.bits))) (hout : ∀ b, out = some b → b.length = a.length)
    (w w1 : List (BitVec t.bits)) (hw : w.length = 8 * (a.length / 16 + 1)) (hw1 : w1.length = a.length / 2)
    (hn : 65536 ≤ a.length) (hn' : a.length < 2 ^ 63)
    (s : PS (BitVec t.bits)) (hr : ParRun t .merge f a out w s) (hdone : s.completed = 8) :
    sortSerial (ops t) .merge a w1 = some s.a := by
  have h := (parRun_inv t .merge f hf a out hout w hw hn hn' s hr).sorted rfl hdone
  obtain ⟨S', h1, _, _, h4⟩ := sortFn_correct (opsOk t) .merge [] a [] w1 hw1 hn'
  rw [SS.eq (opsOk t).swo (h.2.2 rfl) (h4 rfl)]
  simpa [sortSerial] using h1

theorem vbefore_total (a b : Value) (h1 : ¬ vbefore a b) (h2 : ¬ vbefore b a) : a = b := by
  unfold vbefore at *
  cases a <;> cases b <;> simp [Value.lt] at *
  omega

/-- Two sorts of the same list hold the same numbers at the same places. -/
theorem sort_values_unique (t : DT) {l l1 l2 : List (BitVec t.bits)} (h1 : IsSortOf (before t) l1 l)
    (h2 : IsSortOf (before t) l2 l) : l1.map (value t) = l2.map (value t) := by
  have hm : ∀ {l' : List (BitVec t.bits)}, Ascending (before t) l' → (l'.map (value t)).Pairwise fun x y => ¬ vbefore y x :=
    fun h => List.pairwise_map.2 h
  refine List.Perm.eq_of_pairwise (le := fun x y => ¬ vbefore y x) ?_ (hm h1.2) (hm h2.2) ((h1.1.trans h2.1.symm).map _)
  intro a b _ _ h3 h4
  exact vbefore_total a b h4 h3

/-- C22: with any kind, the parallel sort puts the same numbers at the same places as the serial sort. -/
theorem C22_same_values (t : DT) (k k' : Kind) (f : Nat → List (BitVec t.bits)) (hf : ∀ m, (f m).length = m)
    (a : List (BitVec t.bits)) (out : Option (List (BitVec t.bits))) (hout : ∀ b, out = some b → b.length = a.length)
    (w w1 : List (BitVec t.bits)) (hw : w.length = 8 * (a.length / 16 + 1)) (hw1 : w1.length = a.length / 2)
    (hn : 65536 ≤ a.length) (hn' : a.length < 2 ^ 63)
    (s : PS (BitVec t.bits)) (hr : ParRun t k f a out w s) (hdone : s.completed = 8) :
    ∃ b, sortSerial (ops t) k' a w1 = some b ∧ s.a.map (value t) = b.map (value t) := by
  obtain ⟨b, h1, h2⟩ := C18_sort_ascending t k' a w1 hw1 hn'
  exact ⟨b, h1, sort_values_unique t (C22_parallel_sort t k f hf a out hout w hw hn hn' s hr hdone) h2⟩

/-- C23: two segment tasks that run at the same time own disjoint ranges of the array and of the workspace, and
all ranges lie inside the array (`n` elements) and the workspace (`8 * (n / 16 + 1)` elements). -/
theorem C23_disjoint (t : DT) (k : Kind) (f : Nat → List (BitVec t.bits)) (hf : ∀ m, (f m).length = m)
    (a : List (BitVec t.bits)) (out : Option (List (BitVec t.bits))) (hout : ∀ b, out = some b → b.length = a.length)
    (w : List (BitVec t.bits)) (hw : w.length = 8 * (a.length / 16 + 1)) (hn : 65536 ≤ a.length) (hn' : a.length < 2 ^ 63)
    (s : PS (BitVec t.bits)) (hr : ParRun t k f a out w s) (l j l' j' : Nat) (p p' : List (BitVec t.bits))
    (h : s.st (l, j) = .running p) (h' : s.st (l', j') = .running p') (hne : (l, j) ≠ (l', j')) :
    nodeHi a.length l j ≤ a.length ∧ nodeWs a.length l (j + 1) ≤ 8 * (a.length / 16 + 1) ∧
    (nodeHi a.length l j ≤ nodeLo a.length l' j' ∨ nodeHi a.length l' j' ≤ nodeLo a.length l j) ∧
    (nodeWs a.length l (j + 1) ≤ nodeWs a.length l' j' ∨ nodeWs a.length l' (j' + 1) ≤ nodeWs a.length l j) := by
  have i := parRun_inv t k f hf a out hout w hw hn hn' s hr
  have hv := i.tree.valid l j (by rw [h]; exact fun h => by cases h)
  exact ⟨nodeHi_le hv, nodeWs_le hv, i.tree.disjoint (Or.inr (Or.inl ⟨p, h⟩)) (Or.inr (Or.inl ⟨p', h'⟩)) hne⟩

/-- C23: whatever the other threads have done so far, the function of a running task returns, and changes nothing
outside the task's own range of the array and of the workspace. -/
theorem C23_task_stays_inside (t : DT) (k : Kind) (f : Nat → List (BitVec t.bits)) (hf : ∀ m, (f m).length = m)
    (a : List (BitVec t.bits)) (out : Option (List (BitVec t.bits))) (hout : ∀ b, out = some b → b.length = a.length)
    (w : List (BitVec t.bits)) (hw : w.length = 8 * (a.length / 16 + 1)) (hn : 65536 ≤ a.length) (hn' : a.length < 2 ^ 63)
    (s : PS (BitVec t.bits)) (hr : ParRun t k f a out w s) (l j : Nat) (p : List (BitVec t.bits))
    (h : s.st (l, j) = .running p) :
    ∃ a' w', body (leafSort (ops t) k f) (parMerge (direct (ops t).lt)) a.length l j (splice s.a (nodeLo a.length l j) p) s.w = some (a', w') ∧
      Within (nodeLo a.length l j) (nodeHi a.length l j) a' s.a ∧
      Within (nodeWs a.length l j) (nodeWs a.length l (j + 1)) w' s.w := by
  have i := parRun_inv t k f hf a out hout w hw hn hn' s hr
  have hv := i.tree.valid l j (by rw [h]; exact fun h => by cases h)
  obtain ⟨a', w', h1, h2, h3, _⟩ := body_ok ((sort_contract t k f hf hn').node rfl (fun _ _ => trivial)) (by omega) rfl i.content hv h
  exact ⟨a', w', h1, h2, h3⟩

/-- C22: while blocks are missing, some thread can take a step that makes progress. -/
theorem C22_no_deadlock (t : DT) (k : Kind) (f : Nat → List (BitVec t.bits)) (hf : ∀ m, (f m).length = m)
    (a : List (BitVec t.bits)) (out : Option (List (BitVec t.bits))) (hout : ∀ b, out = some b → b.length = a.length)
    (w : List (BitVec t.bits)) (hw : w.length = 8 * (a.length / 16 + 1)) (hn : 65536 ≤ a.length) (hn' : a.length < 2 ^ 63)
    (s : PS (BitVec t.bits)) (hr : ParRun t k f a out w s) (h : s.completed ≠ 8) :
    ∃ s', Step (leafSort (ops t) k f) (parMerge (direct (ops t).lt)) a.length (srcOf a out) s s' ∧ progress s < progress s' :=
  exists_step ((sort_contract t k f hf hn').node rfl (fun _ _ => trivial)) (by omega) rfl
    (parRun_inv t k f hf a out hout w hw hn hn' s hr) h

/-- C22: no run makes more than 53 steps that take a segment, finish a task or set a bit. -/
theorem C22_bounded_steps (t : DT) (k : Kind) (f : Nat → List (BitVec t.bits)) (hf : ∀ m, (f m).length = m)
    (a : List (BitVec t.bits)) (out : Option (List (BitVec t.bits))) (hout : ∀ b, out = some b → b.length = a.length)
    (w : List (BitVec t.bits)) (hw : w.length = 8 * (a.length / 16 + 1)) (hn : 65536 ≤ a.length) (hn' : a.length < 2 ^ 63)
    (s : PS (BitVec t.bits)) (hr : ParRun t k f a out w s) :
    progress s ≤ 53 ∧
    ∀ s', Step (leafSort (ops t) k f) (parMerge (direct (ops t).lt)) a.length (srcOf a out) s s' →
      (s'.st = s.st ∧ s'.next = s.next ∧ s'.completed = s.completed) ∨ progress s < progress s' := by
  have i := parRun_inv t k f hf a out hout w hw hn hn' s hr
  exact ⟨progress_le i.tree, fun s' h => (step_progress i.tree h).1⟩

/-- C22: every run can be completed. -/
theorem C22_completes (t : DT) (k : Kind) (f : Nat → List (BitVec t.bits)) (hf : ∀ m, (f m).length = m)
    (a : List (BitVec t.bits)) (out : Option (List (BitVec t.bits))) (hout : ∀ b, out = some b → b.length = a.length)
    (w : List (BitVec t.bits)) (hw : w.length = 8 * (a.length / 16 + 1)) (hn : 65536 ≤ a.length) (hn' : a.length < 2 ^ 63)
    (s : PS (BitVec t.bits)) (hr : ParRun t k f a out w s) :
    ∃ s', ParRun t k f a out w s' ∧
      Reach (leafSort (ops t) k f) (parMerge (direct (ops t).lt)) a.length (srcOf a out) s s' ∧ s'.completed = 8 :=
  exists_complete ((sort_contract t k f hf hn').node rfl (fun _ _ => trivial)) (by omega) rfl
    (fun v hv => by
      cases out with
      | none => simp [srcOf] at hv
      | some b => simp [srcOf] at hv; exact hv.symm)
    (parRun_inv t k f hf a out hout w hw hn hn' _ .start) hr

/-- C22: a merge starts only after the sorts of both halves have returned (their bits are set), ... -/
theorem C22_merge_after_halves (t : DT) (k : Kind) (f : Nat → List (BitVec t.bits)) (hf : ∀ m, (f m).length = m)
    (a : List (BitVec t.bits)) (out : Option (List (BitVec t.bits))) (hout : ∀ b, out = some b → b.length = a.length)
    (w : List (BitVec t.bits)) (hw : w.length = 8 * (a.length / 16 + 1)) (hn : 65536 ≤ a.length) (hn' : a.length < 2 ^ 63)
    (s : PS (BitVec t.bits)) (hr : ParRun t k f a out w s) (l j : Nat) (p : List (BitVec t.bits))
    (h : s.st (l + 1, j) = .running p) : s.st (l, 2 * j) = .flagged ∧ s.st (l, 2 * j + 1) = .flagged := by
  have i := parRun_inv t k f hf a out hout w hw hn hn' s hr
  have hne : s.st (l + 1, j) ≠ .idle := by rw [h]; exact fun h => by cases h
  exact (i.tree.par l j (i.tree.valid _ _ hne)).1 hne

/-- ... and no task is ever run a second time. -/
theorem C22_task_once (t : DT) (k : Kind) (f : Nat → List (BitVec t.bits)) (hf : ∀ m, (f m).length = m)
    (a : List (BitVec t.bits)) (out : Option (List (BitVec t.bits))) (hout : ∀ b, out = some b → b.length = a.length)
    (w : List (BitVec t.bits)) (hw : w.length = 8 * (a.length / 16 + 1)) (hn : 65536 ≤ a.length) (hn' : a.length < 2 ^ 63)
    (s s' : PS (BitVec t.bits)) (hr : ParRun t k f a out w s)
    (hr' : Reach (leafSort (ops t) k f) (parMerge (direct (ops t).lt)) a.length (srcOf a out) s s') (q : Nat × Nat)
    (h : s.st q = .finished ∨ s.st q = .flagged) : s'.st q = .finished ∨ s'.st q = .flagged := by
  have i := parRun_inv t k f hf a out hout w hw hn hn' s hr
  have := reach_rank ((sort_contract t k f hf hn').node rfl (fun _ _ => trivial)) (by omega) rfl
    (fun v hv => by
      cases out with
      | none => simp [srcOf] at hv
      | some b => simp [srcOf] at hv; exact hv.symm) i hr' q
  rcases h with h | h <;> rw [h] at this <;> cases hs : s'.st q <;> rw [hs] at this <;> simp [rank] at this <;> simp

/-! ### Concrete cases -/

/-- 100000 int32, in place: a completed run exists and its array is sorted. -/
example : ∃ s, ParRun .i32 .heap (fun m => List.replicate m 0) (List.replicate 50000 7 ++ List.replicate 50000 3) none
    (List.replicate (8 * (100000 / 16 + 1)) 0) s ∧
      IsSortOf (before .i32) s.a (List.replicate 50000 7 ++ List.replicate 50000 3) := by
  have hl : (List.replicate 50000 (7 : BitVec DT.i32.bits) ++ List.replicate 50000 3).length = 100000 := by
    rw [List.length_append, List.length_replicate, List.length_replicate]
  have hw : (List.replicate (8 * (100000 / 16 + 1)) (0 : BitVec DT.i32.bits)).length =
      8 * ((List.replicate 50000 (7 : BitVec DT.i32.bits) ++ List.replicate 50000 3).length / 16 + 1) := by
    rw [hl, List.length_replicate]
  obtain ⟨s, h1, _, h2⟩ := C22_completes .i32 .heap (fun m => List.replicate m 0) (fun m => List.length_replicate)
    (List.replicate 50000 7 ++ List.replicate 50000 3) none (fun _ h => by cases h)
    _ hw (by rw [hl]; decide) (by rw [hl]; decide) _ .start
  exact ⟨s, h1, C22_parallel_sort .i32 .heap _ (fun m => List.length_replicate) _ none (fun _ h => by cases h) _ hw
    (by rw [hl]; decide) (by rw [hl]; decide) s h1 h2⟩

/-- Out of place. -/
example (a b : List (BitVec DT.f64.bits)) (hn : 65536 ≤ a.length) (hn' : a.length < 2 ^ 63) (hb : b.length = a.length) :
    ∃ s, ParRun .f64 .merge (fun m => List.replicate m 0) a (some b) (List.replicate (8 * (a.length / 16 + 1)) 0) s ∧
      IsSortOf (before .f64) s.a a := by
  obtain ⟨s, h1, _, h2⟩ := C22_completes .f64 .merge (fun m => List.replicate m 0) (fun m => List.length_replicate) a (some b)
    (fun _ h => by injection h with h; rw [← h]; exact hb)
    (List.replicate (8 * (a.length / 16 + 1)) 0) List.length_replicate hn hn' _ .start
  exact ⟨s, h1, C22_parallel_sort .f64 .merge _ (fun m => List.length_replicate) a (some b)
    (fun _ h => by injection h with h; rw [← h]; exact hb) _ List.length_replicate hn hn' s h1 h2⟩

/-- Cases of C22 and C23: 65536 or more float32 values, out of place, sorted by merge: the completed run gives the unthreaded result and the
values heap sort gives. -/
example (a b : List (BitVec DT.f32.bits)) (hn : 65536 ≤ a.length) (hn' : a.length < 2 ^ 63) (hb : b.length = a.length) :
    ∃ s, ParRun .f32 .merge (fun m => List.replicate m 0) a (some b) (List.replicate (8 * (a.length / 16 + 1)) 0) s ∧
      sortSerial (ops .f32) .merge a (List.replicate (a.length / 2) 0) = some s.a ∧
      ∃ b', sortSerial (ops .f32) .heap a (List.replicate (a.length / 2) 0) = some b' ∧ s.a.map (value .f32) = b'.map (value .f32) := by
  obtain ⟨s, h1, _, h2⟩ := C22_completes .f32 .merge (fun m => List.replicate m 0) (fun m => List.length_replicate) a (some b)
    (fun _ h => by injection h with h; rw [← h]; exact hb)
    (List.replicate (8 * (a.length / 16 + 1)) 0) List.length_replicate hn hn' _ .start
  exact ⟨s, h1, C22_parallel_equals_serial .f32 _ (fun m => List.length_replicate) a (some b)
    (fun _ h => by injection h with h; rw [← h]; exact hb) _ _ List.length_replicate List.length_replicate hn hn' s h1 h2,
    C22_same_values .f32 .merge .heap _ (fun m => List.length_replicate) a (some b)
    (fun _ h => by injection h with h; rw [← h]; exact hb) _ _ List.length_replicate List.length_replicate hn hn' s h1 h2⟩

/-- At the start nobody has finished: a step is possible, and the run is one of at most 53 counted steps. -/
example (a : List (BitVec DT.f32.bits)) (hn : 65536 ≤ a.length) (hn' : a.length < 2 ^ 63) :
    ∃ s, ParRun .f32 .merge (fun m => List.replicate m 0) a none (List.replicate (8 * (a.length / 16 + 1)) 0) s ∧ 0 < progress s ∧ progress s ≤ 53 := by
  obtain ⟨s', hs', hp⟩ := C22_no_deadlock .f32 .merge (fun m => List.replicate m 0) (fun m => List.length_replicate) a none (fun _ h => by cases h)
    (List.replicate (8 * (a.length / 16 + 1)) 0) List.length_replicate hn hn' _ .start (by show (0 : Nat) ≠ 8; decide)
  have hr : ParRun .f32 .merge (fun m => List.replicate m 0) a none (List.replicate (8 * (a.length / 16 + 1)) 0) s' := .step .start hs'
  exact ⟨s', hr, by omega, (C22_bounded_steps .f32 .merge (fun m => List.replicate m 0) (fun m => List.length_replicate) a none (fun _ h => by cases h)
    _ List.length_replicate hn hn' s' hr).1⟩

end Pnumpy.Props
