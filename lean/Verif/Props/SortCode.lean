import Verif.Props.TsoSort
import Verif.Proofs.SortCodeIso
/-
Property theorems C78 for the code itself: every thread executes the sort and merge functions of sort.cpp load by load and store by store (Model/SortCode).
-/
namespace Pnumpy.Props
open Spec Pnumpy.Sort Pnumpy.ParSort Pnumpy.TsoSort Pnumpy.SortCode

/-- C78: a parallel sort of any element type and kind, in place (`src = none`) or from a separate source array (`src = some v`), with any number of
threads, any interleaving of their loads and stores and any delay of the stores, and whatever stores of the caller were still on their way when
it made the call: when all eight blocks are complete (which is when the call returns), the array in memory is a sorted permutation of what the
caller last saw in it (of the source array), no store is still on its way, and nothing else has changed but the workspace. -/
theorem C78_code_sort_visible (t : DT) (k : Kind) (f : Nat → List (BitVec t.bits)) (hf : ∀ m, (f m).length = m) (n : Nat) (hn : 65536 ≤ n) (hn' : n < 2 ^ 63)
    (src : Option (List (BitVec t.bits))) (hsrc : ∀ v, src = some v → v.length = n)
    (mem : Loc → BitVec t.bits) (stores : List (Loc × BitVec t.bits)) (flag : Loc × BitVec t.bits) (hu : NotYet mem stores flag) (acts : List Act)
    (hdone : (exec (sortProg (ops t) k f n src) mem stores flag acts).completed = 8) :
    IsSortOf (before t) (arrayIn (exec (sortProg (ops t) k f n src) mem stores flag acts).mem n) (src.getD (arrayIn (lastStored mem (stores ++ [flag])) n)) ∧
    (∀ c, (exec (sortProg (ops t) k f n src) mem stores flag acts).buf c = []) ∧
    ∀ i, (exec (sortProg (ops t) k f n src) mem stores flag acts).mem (.other i) = lastStored mem (stores ++ [flag]) (.other i) := by
  have hl : (src.getD (arrayIn (lastStored mem (stores ++ [flag])) n)).length = n := by
    cases src with
    | none => simp [arrayIn]
    | some v => exact hsrc v rfl
  obtain ⟨h1, h2, h3⟩ := exec_done (a0 := src.getD (arrayIn (lastStored mem (stores ++ [flag])) n)) (src := src)
    ((iso_sort_contract (opsOk t) k f hf hn').node hl fun _ _ => trivial) (by omega) hl (fun v hv => by rw [hv]; rfl)
    ⟨fun _ _ _ _ _ _ => trivial, fun _ _ => trivial⟩ (sortProg_code (ops t) k f n src hsrc _) hu (fun h => by rw [h]; exact arrayIn_seen _ _ _) acts hdone
  have h4 : Sorted3 (ops t).lt k _ (part n _ 3 0) := h2
  rw [part, show nodeLo n 3 0 = 0 from rfl, show nodeHi n 3 0 = n from rfl] at h4
  have h5 := seg_all (src.getD (arrayIn (lastStored mem (stores ++ [flag])) n))
  rw [hl] at h5
  rw [h5] at h4
  exact ⟨⟨h4.1, (ascending_iff (ops_lt_iff t) _).1 h4.2.1⟩, h1, fun i => (h3 i).trans (sort_load_lastStored _ _ _)⟩

/-- C78: and the merge sort leaves in memory bit for bit what the serial merge sort computes. -/
theorem C78_code_merge_equals_serial (t : DT) (f : Nat → List (BitVec t.bits)) (hf : ∀ m, (f m).length = m) (n : Nat) (hn : 65536 ≤ n) (hn' : n < 2 ^ 63)
    (src : Option (List (BitVec t.bits))) (hsrc : ∀ v, src = some v → v.length = n)
    (mem : Loc → BitVec t.bits) (stores : List (Loc × BitVec t.bits)) (flag : Loc × BitVec t.bits) (hu : NotYet mem stores flag) (acts : List Act)
    (hdone : (exec (sortProg (ops t) .merge f n src) mem stores flag acts).completed = 8) (w1 : List (BitVec t.bits)) (hw1 : w1.length = n / 2) :
    sortSerial (ops t) .merge (src.getD (arrayIn (lastStored mem (stores ++ [flag])) n)) w1 = some (arrayIn (exec (sortProg (ops t) .merge f n src) mem stores flag acts).mem n) := by
  have hl : (src.getD (arrayIn (lastStored mem (stores ++ [flag])) n)).length = n := by
    cases src with
    | none => simp [arrayIn]
    | some v => exact hsrc v rfl
  obtain ⟨h1, h2, h3⟩ := exec_done (a0 := src.getD (arrayIn (lastStored mem (stores ++ [flag])) n)) (src := src)
    ((iso_sort_contract (opsOk t) .merge f hf hn').node hl fun _ _ => trivial) (by omega) hl (fun v hv => by rw [hv]; rfl)
    ⟨fun _ _ _ _ _ _ => trivial, fun _ _ => trivial⟩ (sortProg_code (ops t) .merge f n src hsrc _) hu (fun h => by rw [h]; exact arrayIn_seen _ _ _) acts hdone
  have h4 : Sorted3 (ops t).lt .merge _ (part n _ 3 0) := h2
  rw [part, show nodeLo n 3 0 = 0 from rfl, show nodeHi n 3 0 = n from rfl] at h4
  have h5 := seg_all (src.getD (arrayIn (lastStored mem (stores ++ [flag])) n))
  rw [hl] at h5
  rw [h5] at h4
  generalize src.getD (arrayIn (lastStored mem (stores ++ [flag])) n) = a at *
  obtain ⟨S', e1, _, _, e4⟩ := sortFn_correct (opsOk t) .merge [] a [] w1 (by rw [hl]; exact hw1) (by omega)
  have e5 : arrayIn (exec (sortProg (ops t) .merge f n src) mem stores flag acts).mem n = S' := SS.eq (opsOk t).swo (h4.2.2 rfl) (e4 rfl)
  rw [e5]
  simpa [sortSerial] using e1

/-- C78: a parallel sort that has not finished can always be brought to its end. -/
theorem C78_code_sort_completes (t : DT) (k : Kind) (f : Nat → List (BitVec t.bits)) (hf : ∀ m, (f m).length = m) (n : Nat) (hn : 65536 ≤ n) (hn' : n < 2 ^ 63)
    (src : Option (List (BitVec t.bits))) (hsrc : ∀ v, src = some v → v.length = n)
    (mem : Loc → BitVec t.bits) (stores : List (Loc × BitVec t.bits)) (flag : Loc × BitVec t.bits) (hu : NotYet mem stores flag) (acts : List Act) :
    ∃ more, (exec (sortProg (ops t) k f n src) mem stores flag (acts ++ more)).completed = 8 := by
  have hl : (src.getD (arrayIn (lastStored mem (stores ++ [flag])) n)).length = n := by
    cases src with
    | none => simp [arrayIn]
    | some v => exact hsrc v rfl
  exact exec_can_finish (a0 := src.getD (arrayIn (lastStored mem (stores ++ [flag])) n)) (src := src)
    ((iso_sort_contract (opsOk t) k f hf hn').node hl fun _ _ => trivial) (by omega) hl (fun v hv => by rw [hv]; rfl)
    ⟨fun _ _ _ _ _ _ => trivial, fun _ _ => trivial⟩ (sortProg_code (ops t) k f n src hsrc _) hu (fun h => by rw [h]; exact arrayIn_seen _ _ _) acts

/-- C78: the parallel argsort under the same conditions, whatever the keys `v` and the kind: if the caller saw `0 .. n-1` in the index array when it made the
call, then at the end the index array in memory holds each index exactly once, no store is on its way, nothing else has changed but the workspace. -/
theorem C78_code_argsort_visible (t : DT) (k : Kind) (v : List (BitVec t.bits)) (hn : 65536 ≤ v.length) (hn' : v.length < 2 ^ 63)
    (mem : Loc → Nat) (stores : List (Loc × Nat)) (flag : Loc × Nat) (hu : NotYet mem stores flag)
    (hix : ∀ i, i < v.length → lastStored mem (stores ++ [flag]) (.arr i) = i) (acts : List Act) (hdone : (exec (argsortProg (opsArg t) k v v.length) mem stores flag acts).completed = 8) :
    (arrayIn (exec (argsortProg (opsArg t) k v v.length) mem stores flag acts).mem v.length).Perm (List.range v.length) ∧
    (∀ c, (exec (argsortProg (opsArg t) k v v.length) mem stores flag acts).buf c = []) ∧
    ∀ i, (exec (argsortProg (opsArg t) k v v.length) mem stores flag acts).mem (.other i) = lastStored mem (stores ++ [flag]) (.other i) := by
  have hseen : arrayIn (lastStored mem (stores ++ [flag])) v.length = List.range v.length := by
    refine List.ext_getElem (by simp [arrayIn]) fun i h1 h2 => ?_
    simp only [arrayIn, List.getElem_map, List.getElem_range]
    exact hix i (by simpa [arrayIn] using h1)
  obtain ⟨h1, h2, h3⟩ := exec_done (a0 := List.range v.length) (src := none) (n := v.length)
    ((iso_arg_perm_contract (opsArg_ok t) k v hn').node List.length_range fun i hi => List.mem_range.1 hi) (by omega) List.length_range (fun v hv => by cases hv)
    ⟨fun _ _ _ hS x hx => List.mem_range.1 (List.mem_of_mem_drop (List.mem_of_mem_take (hS.mem_iff.1 hx))), fun x hx => List.mem_range.1 hx⟩ (argsortProg_code (opsArg t) k v v.length _) hu
    (fun _ => (arrayIn_seen _ _ _).trans hseen) acts hdone
  have h4 : (arrayIn (exec (argsortProg (opsArg t) k v v.length) mem stores flag acts).mem v.length).Perm (part v.length (List.range v.length) 3 0) := h2
  have h5 := seg_all (List.range v.length)
  rw [List.length_range] at h5
  rw [part, show nodeLo v.length 3 0 = 0 from rfl, show nodeHi v.length 3 0 = v.length from rfl, h5] at h4
  exact ⟨h4, h1, fun i => (h3 i).trans (sort_load_lastStored _ _ _)⟩

/-- C78: along the index array in memory the keys ascend (a merge argsort needs keys without NaN, see C20), and the merge argsort is stable. -/
theorem C78_code_argsort_sorted (t : DT) (k : Kind) (v : List (BitVec t.bits)) (hn : 65536 ≤ v.length) (hn' : v.length < 2 ^ 63)
    (hb : t = .bool → ∀ x ∈ v, x.toNat ≤ 1) (hk : k ≠ .merge ∨ ∀ x ∈ v, value t x ≠ .nan)
    (mem : Loc → Nat) (stores : List (Loc × Nat)) (flag : Loc × Nat) (hu : NotYet mem stores flag)
    (hix : ∀ i, i < v.length → lastStored mem (stores ++ [flag]) (.arr i) = i) (acts : List Act) (hdone : (exec (argsortProg (opsArg t) k v v.length) mem stores flag acts).completed = 8) :
    IsArgsort (before t) (keyOf v) v.length (arrayIn (exec (argsortProg (opsArg t) k v v.length) mem stores flag acts).mem v.length) ∧
    (k = .merge → IsStableArgsort (before t) (keyOf v) v.length (arrayIn (exec (argsortProg (opsArg t) k v v.length) mem stores flag acts).mem v.length)) := by
  have hseen : arrayIn (lastStored mem (stores ++ [flag])) v.length = List.range v.length := by
    refine List.ext_getElem (by simp [arrayIn]) fun i h1 h2 => ?_
    simp only [arrayIn, List.getElem_map, List.getElem_range]
    exact hix i (by simpa [arrayIn] using h1)
  have hcn := (iso_arg_contract (opsArg_ok t) k v hn').node (a0 := List.range v.length) List.length_range
    fun i hi => ⟨List.mem_range.1 hi, fun h => goodIx_of (hk.resolve_left (fun h' => h' h)) (List.mem_range.1 hi)⟩
  obtain ⟨h1, h2, h3⟩ := exec_done (a0 := List.range v.length) (src := none) (n := v.length) hcn (by omega) List.length_range (fun v hv => by cases hv)
    ⟨fun _ _ _ hS x hx => List.mem_range.1 (List.mem_of_mem_drop (List.mem_of_mem_take (hS.1.mem_iff.1 hx))), fun x hx => List.mem_range.1 hx⟩ (argsortProg_code (opsArg t) k v v.length _) hu
    (fun _ => (arrayIn_seen _ _ _).trans hseen) acts hdone
  have h4 : Sorted3 (keyLt (opsArg t).lt v) k (arrayIn (exec (argsortProg (opsArg t) k v v.length) mem stores flag acts).mem v.length) (part v.length (List.range v.length) 3 0) := h2
  have h5 := seg_all (List.range v.length)
  rw [List.length_range] at h5
  rw [part, show nodeLo v.length 3 0 = 0 from rfl, show nodeHi v.length 3 0 = v.length from rfl, h5] at h4
  refine ⟨⟨h4.1, (ascending_iff (keyLt_iff v hb) _).1 h4.2.1⟩, fun hm => ⟨h4.1, ((h4.2.2 hm).stableArg (keyLt_swo (opsArg_ok t).swo v)).imp fun {i j} h => ?_⟩⟩
  rw [Bool.eq_false_iff, ne_eq, Bool.eq_false_iff, ne_eq, keyLt_iff v hb, keyLt_iff v hb] at h
  exact h

/-- C78: a parallel argsort that has not finished can always be brought to its end, whatever the keys. -/
theorem C78_code_argsort_completes (t : DT) (k : Kind) (v : List (BitVec t.bits)) (hn : 65536 ≤ v.length) (hn' : v.length < 2 ^ 63)
    (mem : Loc → Nat) (stores : List (Loc × Nat)) (flag : Loc × Nat) (hu : NotYet mem stores flag)
    (hix : ∀ i, i < v.length → lastStored mem (stores ++ [flag]) (.arr i) = i) (acts : List Act) :
    ∃ more, (exec (argsortProg (opsArg t) k v v.length) mem stores flag (acts ++ more)).completed = 8 := by
  have hseen : arrayIn (lastStored mem (stores ++ [flag])) v.length = List.range v.length := by
    refine List.ext_getElem (by simp [arrayIn]) fun i h1 h2 => ?_
    simp only [arrayIn, List.getElem_map, List.getElem_range]
    exact hix i (by simpa [arrayIn] using h1)
  exact exec_can_finish (a0 := List.range v.length) (src := none) (n := v.length)
    ((iso_arg_perm_contract (opsArg_ok t) k v hn').node List.length_range fun i hi => List.mem_range.1 hi) (by omega) List.length_range (fun v hv => by cases hv)
    ⟨fun _ _ _ hS x hx => List.mem_range.1 (List.mem_of_mem_drop (List.mem_of_mem_take (hS.mem_iff.1 hx))), fun x hx => List.mem_range.1 hx⟩ (argsortProg_code (opsArg t) k v v.length _) hu
    (fun _ => (arrayIn_seen _ _ _).trans hseen) acts

/-- Thread `c` is about to load or store cell `l` in the code of its segment, or a store of it to `l` has not reached memory. -/
def Touches {V : Type} (s : TsoSort.St V) (c : Nat) (l : Loc) : Prop :=
  (∃ k j f, s.pc c = .run k j (.load l f)) ∨ (∃ k j v p, s.pc c = .run k j (.store l v p)) ∨ ∃ v, (l, v) ∈ s.buf c

/-- The cell is an element of the array or of the workspace `8 * (n / 16 + 1)` elements long. -/
def InArrays (n : Nat) : Loc → Prop
  | .arr i => i < n
  | .ws i => i < 8 * (n / 16 + 1)
  | .other _ => False

theorem touch_own {V : Type} {n : Nat} {src : Option (List V)} {prog : Nat → Nat → Prog V} {m1 : Loc → V} {t : TsoSort.St V} {s : PS V} (r : Rel n src prog m1 t s)
    {c : Nat} {l : Loc} (h : Touches t c l) : ∃ k j p, t.pc c = .run k j p ∧ Own n k j l := by
  rcases h with ⟨k, j, f, h⟩ | ⟨k, j, v, p, h⟩ | ⟨v, h⟩
  · exact ⟨k, j, _, h, (r.run c k j _ h).acc l (by simp [seqAcc])⟩
  · exact ⟨k, j, _, h, (r.run c k j _ h).acc l (by simp [seqAcc])⟩
  · by_cases e : ∃ k j p, t.pc c = .run k j p
    · obtain ⟨k, j, p, e⟩ := e
      exact ⟨k, j, p, e, (r.run c k j p e).mine _ h⟩
    · rw [r.quiet c fun k j p h' => e ⟨k, j, p, h'⟩] at h
      cases h

theorem race_free {V : Type} [DecidableEq V] {P : V → Prop} {leaf mrg : LeafFn V} {n : Nat} {Q : Nat → Nat → List V → Prop} {src : Option (List V)} {a0 : List V}
    {prog : Nat → Nat → Prog V} (hc : NContract leaf mrg n a0 Q) (hn : 16 ≤ n) (h0 : a0.length = n) (hsrc : ∀ v, src = some v → v = a0) (hq : Clean P Q a0)
    (hcode : CodeFor leaf mrg n src P prog) {mem : Loc → V} {before : List (Loc × V)} {flag : Loc × V} (hu : mem flag.1 ≠ flag.2 ∧ ∀ p ∈ before, p.1 ≠ flag.1)
    (hin : src = none → (List.range n).map (fun i => TsoSort.load mem (before ++ [flag]) (.arr i)) = a0) (acts : List Act) (c : Nat) (l : Loc)
    (hl : Touches (exec prog mem before flag acts) c l) :
    (∀ d, d ≠ c → ¬ Touches (exec prog mem before flag acts) d l) ∧ ((exec prog mem before flag acts).next ≠ 0 → InArrays n l) := by
  have h := exec_inv hc hn h0 hsrc hq hcode hu hin acts
  generalize exec prog mem before flag acts = t at *
  rcases h with h | ⟨s, i, r, _⟩
  · obtain ⟨_, left, _, _, hb, _⟩ := h.buf
    have only : ∀ d l, Touches t d l → d = 0 := by
      intro d l hd
      by_contra hne
      rcases hd with ⟨k, j, f, h'⟩ | ⟨k, j, v, p, h'⟩ | ⟨v, h'⟩
      · rw [h.pc] at h'; simp [hne] at h'
      · rw [h.pc] at h'; simp [hne] at h'
      · rw [hb] at h'; simp [hne] at h'
    exact ⟨fun d hd hd' => hd ((only d l hd').trans (only c l hl).symm), fun hne => absurd h.next hne⟩
  · obtain ⟨k, j, p, h1, h2⟩ := touch_own r hl
    obtain ⟨x, hx⟩ := (r.run c k j p h1).running
    refine ⟨fun d hd hd' => ?_, fun _ => ?_⟩
    · obtain ⟨k', j', p', h1', h2'⟩ := touch_own r hd'
      obtain ⟨y, hy⟩ := (r.run d k' j' p' h1').running
      exact own_disjoint i.tree hx hy (r.ne_node h1' h1 (Ne.symm hd)) h2 h2'
    · have hv := i.tree.valid k j (by rw [hx]; exact fun h => by cases h)
      have hhi := nodeHi_le (n := n) hv
      have hwl := nodeWs_le (n := n) hv
      unfold chunk at hwl
      cases l with
      | arr i => exact Nat.lt_of_lt_of_le h2.2 hhi
      | ws i => exact Nat.lt_of_lt_of_le h2.2 hwl
      | other i => exact h2

/-- C78: at no time do two threads of a parallel sort work on the same cell: what one of them is about to load or store, or has stored without the store
having reached memory, no other thread touches. And once the segments are being handed out, they touch nothing but the array and the workspace. -/
theorem C78_code_sort_race_free (t : DT) (k : Kind) (f : Nat → List (BitVec t.bits)) (hf : ∀ m, (f m).length = m) (n : Nat) (hn : 65536 ≤ n) (hn' : n < 2 ^ 63)
    (src : Option (List (BitVec t.bits))) (hsrc : ∀ v, src = some v → v.length = n)
    (mem : Loc → BitVec t.bits) (stores : List (Loc × BitVec t.bits)) (flag : Loc × BitVec t.bits) (hu : NotYet mem stores flag) (acts : List Act) (c : Nat) (l : Loc)
    (hl : Touches (exec (sortProg (ops t) k f n src) mem stores flag acts) c l) :
    (∀ d, d ≠ c → ¬ Touches (exec (sortProg (ops t) k f n src) mem stores flag acts) d l) ∧
    ((exec (sortProg (ops t) k f n src) mem stores flag acts).next ≠ 0 → InArrays n l) := by
  have hlen : (src.getD (arrayIn (lastStored mem (stores ++ [flag])) n)).length = n := by
    cases src with
    | none => simp [arrayIn]
    | some v => exact hsrc v rfl
  exact race_free (a0 := src.getD (arrayIn (lastStored mem (stores ++ [flag])) n)) (src := src)
    ((iso_sort_contract (opsOk t) k f hf hn').node hlen fun _ _ => trivial) (by omega) hlen (fun v hv => by rw [hv]; rfl)
    ⟨fun _ _ _ _ _ _ => trivial, fun _ _ => trivial⟩ (sortProg_code (ops t) k f n src hsrc _) hu (fun h => by rw [h]; exact arrayIn_seen _ _ _) acts c l hl

/-- C78: the same for the parallel argsort, whatever the keys. -/
theorem C78_code_argsort_race_free (t : DT) (k : Kind) (v : List (BitVec t.bits)) (hn : 65536 ≤ v.length) (hn' : v.length < 2 ^ 63)
    (mem : Loc → Nat) (stores : List (Loc × Nat)) (flag : Loc × Nat) (hu : NotYet mem stores flag)
    (hix : ∀ i, i < v.length → lastStored mem (stores ++ [flag]) (.arr i) = i) (acts : List Act) (c : Nat) (l : Loc)
    (hl : Touches (exec (argsortProg (opsArg t) k v v.length) mem stores flag acts) c l) :
    (∀ d, d ≠ c → ¬ Touches (exec (argsortProg (opsArg t) k v v.length) mem stores flag acts) d l) ∧
    ((exec (argsortProg (opsArg t) k v v.length) mem stores flag acts).next ≠ 0 → InArrays v.length l) := by
  have hseen : arrayIn (lastStored mem (stores ++ [flag])) v.length = List.range v.length := by
    refine List.ext_getElem (by simp [arrayIn]) fun i h1 h2 => ?_
    simp only [arrayIn, List.getElem_map, List.getElem_range]
    exact hix i (by simpa [arrayIn] using h1)
  exact race_free (a0 := List.range v.length) (src := none) (n := v.length)
    ((iso_arg_perm_contract (opsArg_ok t) k v hn').node List.length_range fun i hi => List.mem_range.1 hi) (by omega) List.length_range (fun v hv => by cases hv)
    ⟨fun _ _ _ hS x hx => List.mem_range.1 (List.mem_of_mem_drop (List.mem_of_mem_take (hS.mem_iff.1 hx))), fun x hx => List.mem_range.1 hx⟩
    (argsortProg_code (opsArg t) k v v.length _) hu (fun _ => (arrayIn_seen _ _ _).trans hseen) acts c l hl

/-! ### Cases that meet the hypotheses -/

theorem ix_notYet (n : Nat) : NotYet (fun _ => 0) ((List.range n).map fun i => (Loc.arr i, i)) (Loc.other 7, 1) := by
  refine ⟨by simp, fun p hp => ?_⟩
  obtain ⟨i, _, rfl⟩ := List.mem_map.1 hp
  simp

theorem ix_seen (n i : Nat) (hi : i < n) : lastStored (fun _ => 0) (((List.range n).map fun i => (Loc.arr i, i)) ++ [(Loc.other 7, 1)]) (.arr i) = i := by
  unfold lastStored
  cases h : (((List.range n).map fun i => (Loc.arr i, i)) ++ [(Loc.other 7, 1)]).reverse.find? (fun p : Loc × Nat => decide (p.1 = Loc.arr i)) with
  | none =>
    rw [List.find?_eq_none] at h
    exact absurd (decide_eq_true (p := Loc.arr i = Loc.arr i) rfl) (h (Loc.arr i, i) (by simp [hi]))
  | some q =>
    have h1 := List.find?_some h
    have h2 := List.mem_of_find?_eq_some h
    simp only [decide_eq_true_eq] at h1
    simp only [List.mem_reverse, List.mem_append, List.mem_map, List.mem_range, List.mem_singleton] at h2
    rcases h2 with ⟨x, _, rfl⟩ | rfl
    · simp only [Loc.arr.injEq] at h1; simp [h1]
    · cases h1

/-- An argsort of any kind that starts with the index array still in the caller's store buffer completes, and its result is visible. -/
example (t : DT) (k : Kind) (v : List (BitVec t.bits)) (hn : 65536 ≤ v.length) (hn' : v.length < 2 ^ 63) : ∃ acts,
    (exec (argsortProg (opsArg t) k v v.length) (fun _ => 0) ((List.range v.length).map fun i => (Loc.arr i, i)) (Loc.other 7, 1) acts).completed = 8 ∧
    (arrayIn (exec (argsortProg (opsArg t) k v v.length) (fun _ => 0) ((List.range v.length).map fun i => (Loc.arr i, i)) (Loc.other 7, 1) acts).mem v.length).Perm (List.range v.length) := by
  obtain ⟨acts, h⟩ := C78_code_argsort_completes t k v hn hn' _ _ _ (ix_notYet _) (ix_seen _) []
  exact ⟨acts, h, (C78_code_argsort_visible t k v hn hn' _ _ _ (ix_notYet _) (ix_seen _) _ h).1⟩

/-- An integer sort of any kind completes with a sorted array in memory. -/
example (k : Kind) (n : Nat) (hn : 65536 ≤ n) (hn' : n < 2 ^ 63) (mem : Loc → BitVec DT.i64.bits) (h0 : mem (.other 7) = 0) : ∃ acts,
    (exec (sortProg (ops .i64) k (fun m => List.replicate m 0) n none) mem [] (Loc.other 7, 1) acts).completed = 8 ∧
    IsSortOf (before .i64) (arrayIn (exec (sortProg (ops .i64) k (fun m => List.replicate m 0) n none) mem [] (Loc.other 7, 1) acts).mem n) (arrayIn mem n) := by
  have hu : NotYet mem [] (Loc.other 7, 1) := ⟨by rw [h0]; decide, by simp⟩
  obtain ⟨acts, h⟩ := C78_code_sort_completes .i64 k (fun m => List.replicate m 0) (by simp) n hn hn' none (fun v h => by cases h) mem [] (Loc.other 7, 1) hu []
  refine ⟨acts, h, ?_⟩
  have := (C78_code_sort_visible .i64 k (fun m => List.replicate m 0) (by simp) n hn hn' none (fun v h => by cases h) mem [] (Loc.other 7, 1) hu _ h).1
  have e : arrayIn (lastStored mem ([] ++ [(Loc.other 7, 1)])) n = arrayIn mem n := by
    unfold arrayIn lastStored
    refine List.map_congr_left fun i _ => ?_
    simp
  rw [← e]
  exact this

/-- A thread does touch cells: once the caller's store is in memory, the heap argsort of segment 0 starts by loading one of its elements. -/
example (v : List (BitVec 64)) (hn : 65536 ≤ v.length) :
    ∃ l, Touches (exec (argsortProg (opsArg .i64) .heap v v.length) (fun _ => 0) [] (Loc.other 7, 1) [.drain 0, .go 0]) 0 l := by
  have hb := node_big (n := v.length) (k := 0) (j := 0) (by omega) ⟨by omega, by simp⟩
  refine ⟨.arr (nodeLo v.length 0 0 + (0 + (nodeHi v.length 0 0 - nodeLo v.length 0 0) / 2 - 1)), Or.inl ⟨0, 0, ?_⟩⟩
  have h : ∃ f, argsortProg (opsArg .i64) .heap v v.length 0 0 = .load (.arr (nodeLo v.length 0 0 + (0 + (nodeHi v.length 0 0 - nodeLo v.length 0 0) / 2 - 1))) f := by
    unfold argsortProg argsortC heapsortC
    rw [if_pos rfl]
    simp only [heapifyC]
    rw [if_pos (by omega)]
    exact ⟨_, rfl⟩
  obtain ⟨f, hf⟩ := h
  refine ⟨f, ?_⟩
  rw [← hf]
  rfl

end Pnumpy.Props
