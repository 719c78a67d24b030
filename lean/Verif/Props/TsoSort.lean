import Verif.Spec.Memory
import Verif.Props.ArgMergeExact
import Verif.Proofs.TsoSort
/-
Property theorems C78: the parallel sorts on a processor with store buffers.
-/
namespace Pnumpy.Props
open Spec Pnumpy.Sort Pnumpy.ParSort Pnumpy.TsoSort

theorem sort_load_lastStored {V : Type} (l : List (Loc × V)) : ∀ (mem : Loc → V) (a : Loc), TsoSort.load mem l a = lastStored mem l a := by
  induction l with
  | nil => intro mem a; rfl
  | cons p l ih =>
    intro mem a
    rw [TsoSort.load, ih]
    unfold lastStored
    rw [List.reverse_cons, List.find?_append]
    cases h : l.reverse.find? fun q => decide (q.1 = a) with
    | some q => rfl
    | none =>
      simp only [Option.none_or, List.find?_cons, List.find?_nil]
      by_cases hp : p.1 = a
      · simp [hp]
      · simp [hp, Ne.symm hp]

/-- The `n` elements of the sorted array in memory `m`. -/
def arrayIn {V : Type} (m : Loc → V) (n : Nat) : List V := (List.range n).map fun i => m (.arr i)

/-- The number of the call's work item is not in memory yet and not among the caller's earlier stores. -/
def NotYet {V : Type} (mem : Loc → V) (before : List (Loc × V)) (flag : Loc × V) : Prop :=
  mem flag.1 ≠ flag.2 ∧ ∀ p ∈ before, p.1 ≠ flag.1

theorem arrayIn_seen {V : Type} (mem : Loc → V) (l : List (Loc × V)) (n : Nat) :
    (List.range n).map (fun i => TsoSort.load mem l (.arr i)) = arrayIn (lastStored mem l) n :=
  List.map_congr_left fun i _ => sort_load_lastStored l mem (.arr i)

/-- C78: a parallel sort of any element type and kind, in place (`src = none`) or from a separate source array (`src = some v`), with any number of
threads, any interleaving of their loads and stores and any delay of the stores, and whatever stores of the caller were still on their way when
it made the call: when all eight blocks are complete (which is when the call returns), the array in memory is a sorted permutation of what the
caller last saw in it (of the source array), no store is still on its way, and nothing else has changed but the workspace. -/
theorem C78_sort_visible (t : DT) (k : Kind) (f : Nat → List (BitVec t.bits)) (hf : ∀ m, (f m).length = m) (n : Nat) (hn : 65536 ≤ n) (hn' : n < 2 ^ 63)
    (src : Option (List (BitVec t.bits))) (hsrc : ∀ v, src = some v → v.length = n) (prog : Nat → Nat → Prog (BitVec t.bits))
    (hcode : CodeFor (leafSort (ops t) k f) (parMerge (direct (ops t).lt)) n src (fun _ => True) prog)
    (mem : Loc → BitVec t.bits) (stores : List (Loc × BitVec t.bits)) (flag : Loc × BitVec t.bits) (hu : NotYet mem stores flag) (acts : List Act)
    (hdone : (exec prog mem stores flag acts).completed = 8) :
    IsSortOf (before t) (arrayIn (exec prog mem stores flag acts).mem n) (src.getD (arrayIn (lastStored mem (stores ++ [flag])) n)) ∧
    (∀ c, (exec prog mem stores flag acts).buf c = []) ∧
    ∀ i, (exec prog mem stores flag acts).mem (.other i) = lastStored mem (stores ++ [flag]) (.other i) := by
  have hl : (src.getD (arrayIn (lastStored mem (stores ++ [flag])) n)).length = n := by
    cases src with
    | none => simp [arrayIn]
    | some v => exact hsrc v rfl
  obtain ⟨h1, h2, h3⟩ := exec_done (a0 := src.getD (arrayIn (lastStored mem (stores ++ [flag])) n)) (src := src)
    ((sort_contract t k f hf hn').node hl fun _ _ => trivial) (by omega) hl (fun v hv => by rw [hv]; rfl)
    ⟨fun _ _ _ _ _ _ => trivial, fun _ _ => trivial⟩ hcode hu (fun h => by rw [h]; exact arrayIn_seen _ _ _) acts hdone
  have h4 : Sorted3 (ops t).lt k _ (part n _ 3 0) := h2
  rw [part, show nodeLo n 3 0 = 0 from rfl, show nodeHi n 3 0 = n from rfl] at h4
  have h5 := seg_all (src.getD (arrayIn (lastStored mem (stores ++ [flag])) n))
  rw [hl] at h5
  rw [h5] at h4
  exact ⟨⟨h4.1, (ascending_iff (ops_lt_iff t) _).1 h4.2.1⟩, h1, fun i => (h3 i).trans (sort_load_lastStored _ _ _)⟩

/-- C78: and the merge sort leaves in memory bit for bit what the serial merge sort computes. -/
theorem C78_merge_equals_serial (t : DT) (f : Nat → List (BitVec t.bits)) (hf : ∀ m, (f m).length = m) (n : Nat) (hn : 65536 ≤ n) (hn' : n < 2 ^ 63)
    (src : Option (List (BitVec t.bits))) (hsrc : ∀ v, src = some v → v.length = n) (prog : Nat → Nat → Prog (BitVec t.bits))
    (hcode : CodeFor (leafSort (ops t) .merge f) (parMerge (direct (ops t).lt)) n src (fun _ => True) prog)
    (mem : Loc → BitVec t.bits) (stores : List (Loc × BitVec t.bits)) (flag : Loc × BitVec t.bits) (hu : NotYet mem stores flag) (acts : List Act)
    (hdone : (exec prog mem stores flag acts).completed = 8) (w1 : List (BitVec t.bits)) (hw1 : w1.length = n / 2) :
    sortSerial (ops t) .merge (src.getD (arrayIn (lastStored mem (stores ++ [flag])) n)) w1 = some (arrayIn (exec prog mem stores flag acts).mem n) := by
  have hl : (src.getD (arrayIn (lastStored mem (stores ++ [flag])) n)).length = n := by
    cases src with
    | none => simp [arrayIn]
    | some v => exact hsrc v rfl
  obtain ⟨h1, h2, h3⟩ := exec_done (a0 := src.getD (arrayIn (lastStored mem (stores ++ [flag])) n)) (src := src)
    ((sort_contract t .merge f hf hn').node hl fun _ _ => trivial) (by omega) hl (fun v hv => by rw [hv]; rfl)
    ⟨fun _ _ _ _ _ _ => trivial, fun _ _ => trivial⟩ hcode hu (fun h => by rw [h]; exact arrayIn_seen _ _ _) acts hdone
  have h4 : Sorted3 (ops t).lt .merge _ (part n _ 3 0) := h2
  rw [part, show nodeLo n 3 0 = 0 from rfl, show nodeHi n 3 0 = n from rfl] at h4
  have h5 := seg_all (src.getD (arrayIn (lastStored mem (stores ++ [flag])) n))
  rw [hl] at h5
  rw [h5] at h4
  generalize src.getD (arrayIn (lastStored mem (stores ++ [flag])) n) = a at *
  obtain ⟨S', e1, _, _, e4⟩ := sortFn_correct (opsOk t) .merge [] a [] w1 (by rw [hl]; exact hw1) (by omega)
  have e5 : arrayIn (exec prog mem stores flag acts).mem n = S' := SS.eq (opsOk t).swo (h4.2.2 rfl) (e4 rfl)
  rw [e5]
  simpa [sortSerial] using e1

/-- C78: a parallel sort that has not finished can always be brought to its end. -/
theorem C78_sort_completes (t : DT) (k : Kind) (f : Nat → List (BitVec t.bits)) (hf : ∀ m, (f m).length = m) (n : Nat) (hn : 65536 ≤ n) (hn' : n < 2 ^ 63)
    (src : Option (List (BitVec t.bits))) (hsrc : ∀ v, src = some v → v.length = n) (prog : Nat → Nat → Prog (BitVec t.bits))
    (hcode : CodeFor (leafSort (ops t) k f) (parMerge (direct (ops t).lt)) n src (fun _ => True) prog)
    (mem : Loc → BitVec t.bits) (stores : List (Loc × BitVec t.bits)) (flag : Loc × BitVec t.bits) (hu : NotYet mem stores flag) (acts : List Act) :
    ∃ more, (exec prog mem stores flag (acts ++ more)).completed = 8 := by
  have hl : (src.getD (arrayIn (lastStored mem (stores ++ [flag])) n)).length = n := by
    cases src with
    | none => simp [arrayIn]
    | some v => exact hsrc v rfl
  exact exec_can_finish (a0 := src.getD (arrayIn (lastStored mem (stores ++ [flag])) n)) (src := src)
    ((sort_contract t k f hf hn').node hl fun _ _ => trivial) (by omega) hl (fun v hv => by rw [hv]; rfl)
    ⟨fun _ _ _ _ _ _ => trivial, fun _ _ => trivial⟩ hcode hu (fun h => by rw [h]; exact arrayIn_seen _ _ _) acts

/-- C78: the parallel argsort under the same conditions, whatever the keys `v` and the kind: if the caller saw `0 .. n-1` in the index array when it made the
call, then at the end the index array in memory holds each index exactly once, no store is on its way, nothing else has changed but the workspace. -/
theorem C78_argsort_visible (t : DT) (k : Kind) (v : List (BitVec t.bits)) (hn : 65536 ≤ v.length) (hn' : v.length < 2 ^ 63) (prog : Nat → Nat → Prog Nat)
    (hcode : CodeFor (leafArg (opsArg t) k v) (parMerge (indirect (opsArg t).lt v)) v.length none (· < v.length) prog)
    (mem : Loc → Nat) (stores : List (Loc × Nat)) (flag : Loc × Nat) (hu : NotYet mem stores flag)
    (hix : ∀ i, i < v.length → lastStored mem (stores ++ [flag]) (.arr i) = i) (acts : List Act) (hdone : (exec prog mem stores flag acts).completed = 8) :
    (arrayIn (exec prog mem stores flag acts).mem v.length).Perm (List.range v.length) ∧
    (∀ c, (exec prog mem stores flag acts).buf c = []) ∧
    ∀ i, (exec prog mem stores flag acts).mem (.other i) = lastStored mem (stores ++ [flag]) (.other i) := by
  have hseen : arrayIn (lastStored mem (stores ++ [flag])) v.length = List.range v.length := by
    refine List.ext_getElem (by simp [arrayIn]) fun i h1 h2 => ?_
    simp only [arrayIn, List.getElem_map, List.getElem_range]
    exact hix i (by simpa [arrayIn] using h1)
  obtain ⟨h1, h2, h3⟩ := exec_done (a0 := List.range v.length) (src := none) (n := v.length)
    ((arg_perm_contract (opsArg_ok t) k v hn').node List.length_range fun i hi => List.mem_range.1 hi) (by omega) List.length_range (fun v hv => by cases hv)
    ⟨fun _ _ _ hS x hx => List.mem_range.1 (List.mem_of_mem_drop (List.mem_of_mem_take (hS.mem_iff.1 hx))), fun x hx => List.mem_range.1 hx⟩ hcode hu
    (fun _ => (arrayIn_seen _ _ _).trans hseen) acts hdone
  have h4 : (arrayIn (exec prog mem stores flag acts).mem v.length).Perm (part v.length (List.range v.length) 3 0) := h2
  have h5 := seg_all (List.range v.length)
  rw [List.length_range] at h5
  rw [part, show nodeLo v.length 3 0 = 0 from rfl, show nodeHi v.length 3 0 = v.length from rfl, h5] at h4
  exact ⟨h4, h1, fun i => (h3 i).trans (sort_load_lastStored _ _ _)⟩

/-- C78: along the index array in memory the keys ascend (a merge argsort needs keys without NaN, see C20), and the merge argsort is stable. -/
theorem C78_argsort_sorted (t : DT) (k : Kind) (v : List (BitVec t.bits)) (hn : 65536 ≤ v.length) (hn' : v.length < 2 ^ 63) (prog : Nat → Nat → Prog Nat)
    (hcode : CodeFor (leafArg (opsArg t) k v) (parMerge (indirect (opsArg t).lt v)) v.length none (· < v.length) prog)
    (hb : t = .bool → ∀ x ∈ v, x.toNat ≤ 1) (hk : k ≠ .merge ∨ ∀ x ∈ v, value t x ≠ .nan)
    (mem : Loc → Nat) (stores : List (Loc × Nat)) (flag : Loc × Nat) (hu : NotYet mem stores flag)
    (hix : ∀ i, i < v.length → lastStored mem (stores ++ [flag]) (.arr i) = i) (acts : List Act) (hdone : (exec prog mem stores flag acts).completed = 8) :
    IsArgsort (before t) (keyOf v) v.length (arrayIn (exec prog mem stores flag acts).mem v.length) ∧
    (k = .merge → IsStableArgsort (before t) (keyOf v) v.length (arrayIn (exec prog mem stores flag acts).mem v.length)) := by
  have hseen : arrayIn (lastStored mem (stores ++ [flag])) v.length = List.range v.length := by
    refine List.ext_getElem (by simp [arrayIn]) fun i h1 h2 => ?_
    simp only [arrayIn, List.getElem_map, List.getElem_range]
    exact hix i (by simpa [arrayIn] using h1)
  have hcn := (arg_contract (opsArg_ok t) k v hn').node (a0 := List.range v.length) List.length_range
    fun i hi => ⟨List.mem_range.1 hi, fun h => goodIx_of (hk.resolve_left (fun h' => h' h)) (List.mem_range.1 hi)⟩
  obtain ⟨h1, h2, h3⟩ := exec_done (a0 := List.range v.length) (src := none) (n := v.length) hcn (by omega) List.length_range (fun v hv => by cases hv)
    ⟨fun _ _ _ hS x hx => List.mem_range.1 (List.mem_of_mem_drop (List.mem_of_mem_take (hS.1.mem_iff.1 hx))), fun x hx => List.mem_range.1 hx⟩ hcode hu
    (fun _ => (arrayIn_seen _ _ _).trans hseen) acts hdone
  have h4 : Sorted3 (keyLt (opsArg t).lt v) k (arrayIn (exec prog mem stores flag acts).mem v.length) (part v.length (List.range v.length) 3 0) := h2
  have h5 := seg_all (List.range v.length)
  rw [List.length_range] at h5
  rw [part, show nodeLo v.length 3 0 = 0 from rfl, show nodeHi v.length 3 0 = v.length from rfl, h5] at h4
  refine ⟨⟨h4.1, (ascending_iff (keyLt_iff v hb) _).1 h4.2.1⟩, fun hm => ⟨h4.1, ((h4.2.2 hm).stableArg (keyLt_swo (opsArg_ok t).swo v)).imp fun {i j} h => ?_⟩⟩
  rw [Bool.eq_false_iff, ne_eq, Bool.eq_false_iff, ne_eq, keyLt_iff v hb, keyLt_iff v hb] at h
  exact h

/-- C78: a parallel argsort that has not finished can always be brought to its end, whatever the keys. -/
theorem C78_argsort_completes (t : DT) (k : Kind) (v : List (BitVec t.bits)) (hn : 65536 ≤ v.length) (hn' : v.length < 2 ^ 63) (prog : Nat → Nat → Prog Nat)
    (hcode : CodeFor (leafArg (opsArg t) k v) (parMerge (indirect (opsArg t).lt v)) v.length none (· < v.length) prog)
    (mem : Loc → Nat) (stores : List (Loc × Nat)) (flag : Loc × Nat) (hu : NotYet mem stores flag)
    (hix : ∀ i, i < v.length → lastStored mem (stores ++ [flag]) (.arr i) = i) (acts : List Act) :
    ∃ more, (exec prog mem stores flag (acts ++ more)).completed = 8 := by
  have hseen : arrayIn (lastStored mem (stores ++ [flag])) v.length = List.range v.length := by
    refine List.ext_getElem (by simp [arrayIn]) fun i h1 h2 => ?_
    simp only [arrayIn, List.getElem_map, List.getElem_range]
    exact hix i (by simpa [arrayIn] using h1)
  exact exec_can_finish (a0 := List.range v.length) (src := none) (n := v.length)
    ((arg_perm_contract (opsArg_ok t) k v hn').node List.length_range fun i hi => List.mem_range.1 hi) (by omega) List.length_range (fun v hv => by cases hv)
    ⟨fun _ _ _ hS x hx => List.mem_range.1 (List.mem_of_mem_drop (List.mem_of_mem_take (hS.mem_iff.1 hx))), fun x hx => List.mem_range.1 hx⟩ hcode hu
    (fun _ => (arrayIn_seen _ _ _).trans hseen) acts

/-! ### Code that meets the hypotheses -/

/-- Load the cells one after the other. -/
def readAll {V : Type} : List Loc → List V → (List V → Prog V) → Prog V
  | [], acc, k => k acc
  | l :: ls, acc, k => .load l fun v => readAll ls (acc ++ [v]) k

/-- Store a list into consecutive elements. -/
def writeAll {V : Type} : Nat → List V → Prog V
  | _, [] => .done
  | i, x :: xs => .store (.arr i) x (writeAll (i + 1) xs)

theorem readAll_run {V : Type} (k : List V → Prog V) (m : Loc → V) (ls : List Loc) : ∀ acc,
    seqRun (readAll ls acc k) m = seqRun (k (acc ++ ls.map m)) m ∧ seqAcc (readAll ls acc k) m = ls ++ seqAcc (k (acc ++ ls.map m)) m := by
  induction ls with
  | nil => intro acc; simp [readAll]
  | cons l ls ih =>
    intro acc
    obtain ⟨h1, h2⟩ := ih (acc ++ [m l])
    rw [readAll, seqRun, seqAcc, h1, h2]
    simp

theorem writeAll_run {V : Type} (xs : List V) : ∀ (i : Nat) (m : Loc → V),
    (∀ l ∈ seqAcc (writeAll i xs) m, ∃ x, l = .arr x ∧ i ≤ x ∧ x < i + xs.length) ∧
    (∀ x, x < i → seqRun (writeAll i xs) m (.arr x) = m (.arr x)) ∧
    ∀ x, i ≤ x → x < i + xs.length → xs[x - i]? = some (seqRun (writeAll i xs) m (.arr x)) := by
  induction xs with
  | nil => intro i m; exact ⟨by simp [writeAll, seqAcc], fun x _ => rfl, fun x h1 h2 => by simp at h2; omega⟩
  | cons y ys ih =>
    intro i m
    obtain ⟨h1, h2, h3⟩ := ih (i + 1) (fun x => if x = .arr i then y else m x)
    refine ⟨fun l hl => ?_, fun x hx => ?_, fun x hx1 hx2 => ?_⟩
    · rw [writeAll, seqAcc] at hl
      rcases List.mem_cons.1 hl with rfl | hl
      · exact ⟨i, rfl, Nat.le_refl _, by simp⟩
      · obtain ⟨x, e1, e2, e3⟩ := h1 l hl
        exact ⟨x, e1, by omega, by simp only [List.length_cons]; omega⟩
    · rw [writeAll, seqRun, h2 x (by omega), if_neg (fun e => by cases e; omega)]
    · rw [writeAll, seqRun]
      by_cases e : x = i
      · subst e
        rw [h2 x (by omega), if_pos rfl]; simp
      · rw [← h3 x (by omega) (by simp only [List.length_cons] at hx2; omega), show x - i = x - (i + 1) + 1 by omega]
        rfl

/-- A merge argsort node by node: read the segment, write its sort (leaf) or the merge of its halves. -/
def argCode {α : Type} [Inhabited α] (o : Ops α) (v : List α) (n k j : Nat) : Prog Nat :=
  readAll ((List.range' (nodeLo n k j) (nodeHi n k j - nodeLo n k j)).map Loc.arr) [] fun S =>
    writeAll (nodeLo n k j)
      (if k = 0 then argMs (keyLt o.lt v) (keyLt o.rawLt v) S.length S
       else if needsMerge (keyLt o.lt v) (S.take (S.length / 2)) (S.drop (S.length / 2)) then mergeRef (keyLt o.lt v) (S.take (S.length / 2)) (S.drop (S.length / 2))
       else S)

theorem argCode_ok {α : Type} [Inhabited α] {o : Ops α} (ho : OpsOk o) (v : List α) {n : Nat} (hn : 16 ≤ n) :
    CodeFor (leafArg o .merge v) (parMerge (indirect o.lt v)) n none (· < v.length) (argCode o v n) := by
  intro k j a w a' w' m hk hj ha hw hP _ hbody
  have hv : Valid k j := ⟨hk, hj⟩
  have hhi := nodeHi_le (n := n) hv
  have hlo := nodeLo_le (n := n) hv
  have hws := ws_enough (n := n) hv
  have hwm := nodeWs_mono n k j
  have hwl := nodeWs_le (n := n) hv
  have hbig := node_big hn hv
  have hsnap : snapOf n none k j m = (List.range' (nodeLo n k j) (nodeHi n k j - nodeLo n k j)).map fun i => m (.arr i) := by
    unfold snapOf; split <;> rename_i h
    · simp at h
    · rfl
  obtain ⟨e1, e2⟩ := readAll_run (fun S => writeAll (nodeLo n k j)
      (if k = 0 then argMs (keyLt o.lt v) (keyLt o.rawLt v) S.length S
       else if needsMerge (keyLt o.lt v) (S.take (S.length / 2)) (S.drop (S.length / 2)) then mergeRef (keyLt o.lt v) (S.take (S.length / 2)) (S.drop (S.length / 2))
       else S)) m ((List.range' (nodeLo n k j) (nodeHi n k j - nodeLo n k j)).map Loc.arr) []
  rw [List.nil_append, List.map_map, show (m ∘ Loc.arr) = (fun i => m (.arr i)) from rfl, ← hsnap] at e1 e2
  have hSl : (snapOf n none k j m).length = nodeHi n k j - nodeLo n k j := by rw [hsnap]; simp
  generalize snapOf n none k j m = S at *
  have hA : (a.take (nodeLo n k j)).length = nodeLo n k j := by rw [List.length_take, ha]; omega
  have hspl : splice a (nodeLo n k j) S = a.take (nodeLo n k j) ++ S ++ a.drop (nodeHi n k j) := by
    unfold splice; rw [hSl]; congr 2; omega
  rw [hspl] at hbody
  -- the result and its length
  have hres : ∃ T : List Nat, T = (if k = 0 then argMs (keyLt o.lt v) (keyLt o.rawLt v) S.length S
       else if needsMerge (keyLt o.lt v) (S.take (S.length / 2)) (S.drop (S.length / 2)) then mergeRef (keyLt o.lt v) (S.take (S.length / 2)) (S.drop (S.length / 2))
       else S) ∧ T.length = S.length ∧ a' = a.take (nodeLo n k j) ++ T ++ a.drop (nodeHi n k j) := by
    obtain ⟨W1, W0, hw1, hW1, hW0⟩ := split_at w (nodeWs n k j) (by rw [hw]; omega)
    obtain ⟨W, W2, hw2, hW, hW2⟩ := split_at W0 (nodeWs n k (j + 1) - nodeWs n k j) (by rw [hW0, hw]; omega)
    have hww : w = W1 ++ W ++ W2 := by rw [hw1, hw2, List.append_assoc]
    unfold body at hbody
    rw [hww, ← hSl] at hbody
    refine ⟨_, rfl, ?_, ?_⟩
    · split
      · exact (ref_perm (keyLt_swo ho.swo v) _ S).1.length_eq
      · split
        · rw [mergeRef_eq, (mergeL_perm _ _ _).length_eq, List.take_append_drop]
        · rfl
    · by_cases hk0 : k = 0
      · subst hk0
        rw [if_pos rfl, ← hSl] at hbody
        rw [if_pos rfl]
        obtain ⟨W', h2, h3⟩ := (ems_all ho v S.length).1 S.length (a.take (nodeLo n 0 j)) S (a.drop (nodeHi n 0 j)) W1 W W2 (Nat.le_refl _) rfl (by omega) hP
        unfold leafArg argsortFn at hbody
        simp only at hbody
        rw [hA, hW1] at h3
        rw [h3] at hbody
        exact (congrArg Prod.fst (Option.some.inj hbody)).symm
      · rw [if_neg hk0] at hbody
        rw [if_neg hk0]
        have hsp := List.take_append_drop (S.length / 2) S
        obtain ⟨W', _, h3⟩ := parMerge_eq (computes_indirect o.lt v) (a.take (nodeLo n k j)) (S.take (S.length / 2)) (S.drop (S.length / 2)) (a.drop (nodeHi n k j)) W1 W W2
          (fun x hx => hP x (List.mem_of_mem_take hx)) (fun x hx => hP x (List.mem_of_mem_drop hx)) (pl := nodeLo n k j) (len := S.length) (pw := nodeWs n k j)
          hA.symm (by rw [List.length_take, List.length_drop]; omega) hW1.symm (by rw [List.length_take]; omega) (by omega) (by rw [List.length_take]; omega)
        rw [List.append_assoc (a.take _), hsp] at h3
        rw [h3] at hbody
        exact (congrArg Prod.fst (Option.some.inj hbody)).symm
  obtain ⟨T, hT, hTl, rfl⟩ := hres
  rw [← hT] at e1 e2
  obtain ⟨w1, w2, w3⟩ := writeAll_run T (nodeLo n k j) m
  refine ⟨fun l hl => ?_, fun i hi1 hi2 => ?_⟩
  · unfold argCode at hl
    rw [e2] at hl
    rcases List.mem_append.1 hl with hl | hl
    · obtain ⟨x, hx, rfl⟩ := List.mem_map.1 hl
      rw [List.mem_range'_1] at hx
      exact ⟨hx.1, by omega⟩
    · obtain ⟨x, rfl, h1, h2⟩ := w1 l hl
      exact ⟨h1, by omega⟩
  · unfold argCode
    rw [e1, ← w3 i hi1 (by omega), List.append_assoc, List.getElem?_append_right (by omega), List.getElem?_append_left (by omega), hA]

/-- A run that starts with the index array still in the caller's store buffer, and that completes. -/
example (t : DT) (v : List (BitVec t.bits)) (hn : 65536 ≤ v.length) (hn' : v.length < 2 ^ 63) : ∃ acts,
    (exec (argCode (opsArg t) v v.length) (fun _ => 0) ((List.range v.length).map fun i => (Loc.arr i, i)) (Loc.other 7, 1) acts).completed = 8 ∧
    (arrayIn (exec (argCode (opsArg t) v v.length) (fun _ => 0) ((List.range v.length).map fun i => (Loc.arr i, i)) (Loc.other 7, 1) acts).mem v.length).Perm (List.range v.length) := by
  have hu : NotYet (fun _ => 0) ((List.range v.length).map fun i => (Loc.arr i, i)) (Loc.other 7, 1) := by
    refine ⟨by simp, fun p hp => ?_⟩
    obtain ⟨i, _, rfl⟩ := List.mem_map.1 hp
    simp
  have hix : ∀ i, i < v.length → lastStored (fun _ => 0) (((List.range v.length).map fun i => (Loc.arr i, i)) ++ [(Loc.other 7, 1)]) (.arr i) = i := by
    intro i hi
    unfold lastStored
    cases h : (((List.range v.length).map fun i => (Loc.arr i, i)) ++ [(Loc.other 7, 1)]).reverse.find? (fun p : Loc × Nat => decide (p.1 = Loc.arr i)) with
    | none =>
      rw [List.find?_eq_none] at h
      exact absurd (decide_eq_true (p := Loc.arr i = Loc.arr i) rfl) (h (Loc.arr i, i) (by simp [hi]))
    | some q =>
      have h1 := List.find?_some h
      have h2 := List.mem_of_find?_eq_some h
      simp only [decide_eq_true_eq] at h1
      simp only [List.mem_reverse, List.mem_append, List.mem_map, List.mem_range, List.mem_singleton] at h2
      rcases h2 with ⟨x, _, rfl⟩ | rfl
      · simp only [Loc.arr.injEq] at h1; simp [h1]
      · cases h1
  obtain ⟨acts, h⟩ := C78_argsort_completes t .merge v hn hn' _ (argCode_ok (opsArg_ok t) v (by omega)) _ _ _ hu hix []
  exact ⟨acts, h, (C78_argsort_visible t .merge v hn hn' _ (argCode_ok (opsArg_ok t) v (by omega)) _ _ _ hu hix _ h).1⟩

end Pnumpy.Props
