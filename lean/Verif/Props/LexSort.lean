import Verif.Proofs.LexSort
/-
Property theorems C24 and C25: `lexsort32`/`lexsort64`, without and with `cutoffs`.
-/
namespace Pnumpy.Props
open Spec Pnumpy.Sort Pnumpy.ParSort Pnumpy.Str Pnumpy.Lex

/-- C24 (partial: merge sort kind, no NaN, no float16, strings only below 65536 rows; see the `_violated` theorems):
whatever the schedule, lexsort returns a permutation of the row numbers in ascending order of the keys (last key
first), equal rows in their original order; and a result exists. -/
theorem C24_lexsort_partial (cs : List Col) (n : Nat) (hc : ∀ c ∈ cs, c.Good ∧ c.rows = n) (hn : n < 2 ^ 63)
    (hs : (∃ c ∈ cs, Col.isStr c) → n < 65536) :
    (∃ ix, LexRun .merge cs n ix) ∧
    ∀ ix, LexRun .merge cs n ix → IsStableArgsort (RowBefore (cs.map Col.before)) id n ix := by
  constructor
  · exact passes_exist hc (fun i hi => List.mem_range.1 hi) (by simpa using hn)
  · intro ix h
    obtain ⟨h1, h2⟩ := passes_order hc (fun i hi => List.mem_range.1 hi) (by simpa using hn) (by simpa using hs) h
    exact ⟨h1, h2 (· < ·) List.pairwise_lt_range⟩

/-- C24: two stable argsorts for the same keys are equal; so the result of lexsort depends neither on the schedule nor
on the number of threads. -/
theorem C24_unique_partial (cs : List Col) (n : Nat) (hc : ∀ c ∈ cs, c.Good ∧ c.rows = n) (hn : n < 2 ^ 63)
    (hs : (∃ c ∈ cs, Col.isStr c) → n < 65536) (ix jx : List Nat) (h1 : LexRun .merge cs n ix) (h2 : LexRun .merge cs n jx) :
    ix = jx := by
  have a := (C24_lexsort_partial cs n hc hn hs).2 ix h1
  have b := (C24_lexsort_partial cs n hc hn hs).2 jx h2
  refine (a.1.trans b.1.symm).eq_of_pairwise (fun i j _ _ h3 h4 => ?_) a.2 b.2
  have h5 := h3.2 h4.1
  have h6 := h4.2 h3.1
  omega

/-- Three rows, an integer key and a string key. -/
def threeRows : List Col := [.num .i8 [2#8, 1#8, 0#8], .str 8 1 [[0x62#8], [0x61#8], [0x61#8]]]

theorem threeRows_good : ∀ c ∈ threeRows, c.Good ∧ c.rows = 3 := by
  intro c hc
  simp only [threeRows, List.mem_cons, List.not_mem_nil, or_false] at hc
  rcases hc with rfl | rfl
  · exact ⟨⟨(fun h => nomatch h), fun x hx h => nomatch h⟩, rfl⟩
  · exact ⟨by show ∀ s ∈ _, _ = _; decide, rfl⟩

example : ∃ ix, LexRun .merge threeRows 3 ix ∧ IsStableArgsort (RowBefore (threeRows.map Col.before)) id 3 ix := by
  obtain ⟨⟨ix, h⟩, h2⟩ := C24_lexsort_partial threeRows 3 threeRows_good (by decide) (fun _ => by decide)
  exact ⟨ix, h, h2 ix h⟩

/-! ### What fails -/

/-- C24, violated for float16 keys: they are accepted and not sorted (any kind, any rows: 1.0 before -1.0 stays). -/
theorem C24_half_violated (k : Kind) : ∃ c : Col, c.rows = 2 ∧ (∀ ix, LexRun k [c] 2 ix → ix = [0, 1]) ∧
    (∃ ix, LexRun k [c] 2 ix) ∧ c.before 1 0 := by
  refine ⟨.half [0x3c00, 0xbc00], rfl, fun ix h => ?_, ⟨[0, 1], .cons (.serial _ _ _ [0] rfl rfl) (.nil _)⟩, by
    show (_ : Int) < _; decide⟩
  cases h with
  | cons h1 h2 =>
    cases h2
    cases h1 with
    | serial _ _ _ w hw h => exact (Option.some.inj h).symm

theorem heap2 {α} (cmp : α → α → Option Bool) (x y : α) (h : cmp x y = some false) :
    heapsort cmp [x, y] 0 2 = some [y, x] := by
  have e : siftDown cmp 0 2 x [x, y] 1 2 = some ([x, y], 1) := by
    rw [siftDown, if_pos (by decide)]
    simp [largerChild, h]
  have e2 : siftDown cmp 0 1 y [x, x] 1 2 = some ([x, x], 1) := by
    rw [siftDown, if_neg (by decide)]
  unfold heapsort
  rw [heapify, if_pos (by decide)]
  simp [e, put]
  rw [heapify, if_neg (by decide)]
  simp
  rw [heapPop, if_pos (by decide)]
  simp [e2, put]
  rw [heapPop, if_neg (by decide)]
theorem heap2' {α} (cmp : α → α → Option Bool) (x y : α) (h : cmp x y = some true) :
    heapsort cmp [x, y] 0 2 = some [x, y] := by
  have e : siftDown cmp 0 2 x [x, y] 1 2 = some ([y, y], 2) := by
    rw [siftDown, if_pos (by decide)]
    simp [largerChild, h, put]
    rw [siftDown, if_neg (by decide)]
  have e2 : siftDown cmp 0 1 x [y, y] 1 2 = some ([y, y], 1) := by
    rw [siftDown, if_neg (by decide)]
  unfold heapsort
  rw [heapify, if_pos (by decide)]
  simp [e, put]
  rw [heapify, if_neg (by decide)]
  simp
  rw [heapPop, if_pos (by decide)]
  simp [e2, put]
  rw [heapPop, if_neg (by decide)]

theorem lexHeap {v : List (BitVec DT.i8.bits)} {ix ix' : List Nat} (h : heapsort (indirect (opsArg .i8).lt v) ix 0 ix.length = some ix')
    (w : List Nat) : passSerial .heap (.num .i8 v) ix w = some ix' := by
  simp only [passSerial, argsortSerial, argsortFn, h, Option.map_some]

/-- C24, violated with `kind='heapsort'`: the second (primary) key has two equal values; the order by the first key is
lost. -/
theorem C24_kind_violated : ∃ c1 c2 : Col, c1.Good ∧ c2.Good ∧ c1.rows = 2 ∧ c2.rows = 2 ∧ LexRun .heap [c1, c2] 2 [1, 0] ∧
    RowBefore [c1.before, c2.before] 0 1 := by
  refine ⟨.num .i8 [0#8, 1#8], .num .i8 [5#8, 5#8], ⟨(fun h => nomatch h), fun x hx h => nomatch h⟩,
    ⟨(fun h => nomatch h), fun x hx h => nomatch h⟩, rfl, rfl, ?_, ?_⟩
  · refine .cons (ix' := [0, 1]) (.serial _ _ _ [0] rfl (lexHeap (heap2' _ 0 1 (by decide)) [0]))
      (.cons (ix' := [1, 0]) (.serial _ _ _ [0] rfl (lexHeap (heap2 _ 0 1 (by decide)) [0])) (.nil _))
  · refine Or.inr ⟨?_, ?_⟩
    · rintro (h | ⟨_, h⟩)
      · exact h
      · revert h; show ¬ before .i8 (5 : BitVec DT.i8.bits) (5 : BitVec DT.i8.bits); decide
    · show before .i8 (0 : BitVec DT.i8.bits) (1 : BitVec DT.i8.bits); decide

/-- C24, violated for string keys from 65536 rows on: the passes may return an order that is not ascending (here even
with one key and every schedule of the threads). -/
theorem C24_strings_violated : ∃ (v : List (List (BitVec 8))) (ix : List Nat), v.length = 65536 ∧
    Pass .merge (.str 8 1 v) (List.range 65536) ix ∧ ¬ IsArgsort LexBefore (strOf v) 65536 ix := by
  have hl : ([0x62#8] :: List.replicate 65535 [0x61#8]).length = 65536 := by rw [List.length_cons, List.length_replicate]
  have hw : (List.replicate (8 * (65536 / 16 + 1)) 0).length = 8 * (65536 / 16 + 1) := by rw [List.length_replicate]
  obtain ⟨⟨s, h1, _, h2⟩, _⟩ := C26_parallel_argsort_partial 1 ([0x62#8] :: List.replicate 65535 [0x61#8])
    (List.replicate (8 * (65536 / 16 + 1)) 0)
    (by
      intro s hs
      rcases List.mem_cons.1 hs with rfl | hs
      · rfl
      · rw [(List.mem_replicate.1 hs).2]; rfl) (by rw [hl, hw]) (by rw [hl]) _ .start
  have h3 := C26_parallel_argsort_violated 1 [0x61#8] [0x62#8] rfl rfl ⟨[], _, _, [], [], rfl, rfl, by decide⟩ 65535 (by omega) _
    (by rw [hw]) s h1 h2
  refine ⟨_, s.a, hl, .threadedStr 8 1 _ _ (List.replicate (8 * (65536 / 16 + 1)) 0) s (by rw [List.length_range])
    (by rw [List.length_range, hw]) ?_ h2, h3⟩
  rw [List.length_range]
  unfold ParStrArgRun at h1
  rw [hl] at h1
  exact h1

/-! ### C25 -/

/-- Partition `t` of the rows: from the previous cutoff (0 for the first) up to cutoff `t`. -/
abbrev cutLo (cut : List Nat) (t : Nat) : Nat := if t = 0 then 0 else cut[t - 1]?.getD 0
abbrev cutHi (cut : List Nat) (t : Nat) : Nat := cut[t]?.getD 0

/-- C25 (partial: ascending cutoffs, no NaN, no float16): whatever the schedule of the partitions, the part of the
result that belongs to a partition is the stable argsort of the rows of this partition alone, numbered from 0; and a
result exists. -/
theorem C25_cutoffs_partial (cs : List Col) (cut out : List Nat) (n : Nat) (hc : ∀ c ∈ cs, c.Good ∧ c.rows = n) (hn : n < 2 ^ 63)
    (hasc : cut.Pairwise (· ≤ ·)) (hlast : cut.getLast? = some n) (ho : out.length = n) :
    (∃ ix, CutRun cs cut out ix) ∧
    ∀ ix, CutRun cs cut out ix → ix.length = n ∧ ∀ t, t < cut.length →
      IsStableArgsort (RowBefore (cs.map fun c => (c.slice (cutLo cut t) (cutHi cut t)).before)) id
        (cutHi cut t - cutLo cut t) ((ix.drop (cutLo cut t)).take (cutHi cut t - cutLo cut t)) := by
  have hcut : ValidCut cut n := ⟨hasc, hlast⟩
  obtain ⟨ix0, p1, p2, p3⟩ := prep_ok hcut out ho
  have hrel : Rel cut ix0 := fun t ht i hi => by rw [p3 t ht] at hi; exact List.mem_range.1 hi
  constructor
  · obtain ⟨ix, h⟩ := cutPasses_exist hc hn hcut p2 hrel
    exact ⟨ix, ix0, p1, h⟩
  · rintro ix ⟨jx, h1, h2⟩
    rw [p1] at h1; obtain rfl := Option.some.inj h1
    obtain ⟨l, h3⟩ := cutPasses_order hc hn hcut p2 hrel h2
    refine ⟨l, fun t ht => ?_⟩
    obtain ⟨h4, h5⟩ := h3 t ht
    rw [p3 t ht] at h4 h5
    exact ⟨h4, h5 (· < ·) List.pairwise_lt_range⟩

example : ∃ ix, CutRun threeRows [1, 1, 3] [9, 9, 9] ix ∧
    IsStableArgsort (RowBefore (threeRows.map fun c => (c.slice 1 3).before)) id 2 ((ix.drop 1).take 2) := by
  obtain ⟨⟨ix, h⟩, h2⟩ := C25_cutoffs_partial threeRows [1, 1, 3] [9, 9, 9] 3 threeRows_good (by decide) (by decide) rfl rfl
  exact ⟨ix, h, (h2 ix h).2 2 (by decide)⟩

/-- C25, violated: the call accepts every int64 array that ends with the number of rows, ascending or not; with
cutoffs 5, 3 and 3 rows it writes past the end of the index array. -/
theorem C25_unsorted_violated (cs : List Col) (out : List Nat) (ho : out.length = 3) :
    [5, 3].getLast? = some 3 ∧ prep [5, 3] out = none ∧ ∀ ix, ¬ CutRun cs [5, 3] out ix := by
  have h : prep [5, 3] out = none := by
    simp [prep, prepLoop, blit, ho]
  exact ⟨rfl, h, fun ix ⟨_, h1, _⟩ => by rw [h] at h1; cases h1⟩

/-- Case: a lexsort of `threeRows` always gives the same rows. -/
example (ix jx : List Nat) (h1 : LexRun .merge threeRows 3 ix) (h2 : LexRun .merge threeRows 3 jx) : ix = jx :=
  C24_unique_partial threeRows 3 threeRows_good (by decide) (fun _ => by decide) ix jx h1 h2

end Pnumpy.Props
