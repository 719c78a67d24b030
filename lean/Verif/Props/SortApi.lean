import Verif.Model.SortApi
import Verif.Props.ParSort
import Verif.Props.LexSort
import Mathlib.Tactic.Ring
/-
Property theorems C29, C47-C50: the entry points of sorting.
-/
namespace Pnumpy.Props
open Spec Pnumpy.Sort Pnumpy.ParSort Pnumpy.SortApi Pnumpy.Lex

/-- The elements of a 1-D view: element `i` lies `i * stride` bytes after the first. -/
def viewElems {α : Type} (rd : Int → α) (n : Nat) (stride : Int) : List α := (List.range n).map fun (i : Nat) => rd (i * stride)

theorem viewElems_length {α : Type} (rd : Int → α) (n : Nat) (st : Int) : (viewElems rd n st).length = n := by simp [viewElems]

theorem copyStrided_eq {α : Type} (rd : Int → α) (st : Int) (n : Nat) (p : Int) :
    copyStrided rd st n p = (List.range n).map fun (i : Nat) => rd (p + i * st) := by
  induction n generalizing p with
  | zero => rfl
  | succ n ih =>
    rw [copyStrided, ih, List.range_succ_eq_map, List.map_cons, List.map_map]
    simp only [Nat.cast_zero, zero_mul, add_zero, List.cons.injEq, true_and]
    apply List.map_congr_left
    intro i _
    simp only [Function.comp_apply, Nat.succ_eq_add_one, Nat.cast_add, Nat.cast_one]
    congr 1; ring

theorem copyData_eq {α : Type} (rd : Int → α) (n : Nat) (st sz : Int) : copyData rd n st sz = viewElems rd n st := by
  unfold copyData viewElems
  split
  · next h => rw [h]
  · rw [copyStrided_eq]; simp

/-- What every run of par_sort sorts. -/
def sorted_elems {α : Type} (inPlace threads : Bool) (rd : Int → α) (n : Nat) (stride itemSize : Int) : List α :=
  if inPlace = false ∧ (threads = false ∨ n < 65536) then viewElems rd n stride else viewElems rd n itemSize

theorem sortRun_sound (t : DT) (k : Kind) (inPlace threads : Bool) (rd : Int → BitVec t.bits) (n : Nat) (hn : n < 2 ^ 63)
    (stride itemSize : Int) (r : List (BitVec t.bits)) (h : SortRun (ops t) k inPlace threads rd n stride itemSize r) :
    IsSortOf (before t) r (sorted_elems inPlace threads rd n stride itemSize) := by
  have key : ∀ (l : List (BitVec t.bits)) (w : List (BitVec t.bits)), l.length = n → w.length = n / 2 →
      sortSerial (ops t) k l w = some r → IsSortOf (before t) r l := fun l w h1 h2 h3 => by
    obtain ⟨a', h4, h5⟩ := C18_sort_ascending t k l w (by omega) (by omega)
    rw [h3] at h4; obtain rfl := Option.some.inj h4; exact h5
  cases h with
  | serial w r hc hw hr =>
    unfold sorted_elems
    cases inPlace with
    | false =>
      rw [if_pos ⟨rfl, hc⟩]
      rw [copyData_eq] at hr
      exact key _ w (viewElems_length _ _ _) hw (by simpa using hr)
    | true =>
      rw [if_neg (by simp)]
      exact key _ w (viewElems_length _ _ _) hw (by simpa [threadedSource, viewElems] using hr)
  | parallel f hf w out s hth h65 hw hout hr h8 =>
    have hl : (viewElems rd n itemSize).length = n := viewElems_length _ _ _
    unfold sorted_elems
    rw [if_neg (by intro h; rcases h.2 with h | h; simp [hth] at h; omega)]
    cases inPlace with
    | true =>
      refine C22_parallel_sort t k f hf (viewElems rd n itemSize) none (fun _ h => by cases h) w (by rw [hl]; exact hw)
        (by omega) (by omega) s ?_ h8
      unfold ParRun; rw [hl]; simpa [threadedSource, viewElems, srcOf, startSort] using hr
    | false =>
      refine C22_parallel_sort t k f hf (viewElems rd n itemSize) (some out) (fun _ h => by injection h with h; rw [← h]; omega) w
        (by rw [hl]; exact hw) (by omega) (by omega) s ?_ h8
      unfold ParRun; rw [hl]; simpa [threadedSource, viewElems, srcOf, startSort] using hr

theorem sortRun_exists (t : DT) (k : Kind) (inPlace threads : Bool) (rd : Int → BitVec t.bits) (n : Nat) (hn : n < 2 ^ 63)
    (stride itemSize : Int) : ∃ r, SortRun (ops t) k inPlace threads rd n stride itemSize r := by
  have hl : ∀ s, (viewElems rd n s).length = n := viewElems_length _ _
  by_cases hc : threads = false ∨ n < 65536
  · cases inPlace with
    | false =>
      obtain ⟨a', h4, h5⟩ := C18_sort_ascending t k (viewElems rd n stride) (List.replicate (n / 2) 0) (by simp [hl]) (by rw [hl]; exact hn)
      exact ⟨a', .serial (List.replicate (n / 2) 0) a' hc (by simp) (by simpa [copyData_eq] using h4)⟩
    | true =>
      obtain ⟨a', h4, h5⟩ := C18_sort_ascending t k (viewElems rd n itemSize) (List.replicate (n / 2) 0) (by simp [hl]) (by rw [hl]; exact hn)
      exact ⟨a', .serial (List.replicate (n / 2) 0) a' hc (by simp) (by simpa [threadedSource, viewElems] using h4)⟩
  · have h1 : threads = true := by cases threads; simp at hc; rfl
    have h2 : 65536 ≤ n := by
      by_contra h; exact hc (Or.inr (by omega))
    have hw : (List.replicate (8 * (n / 16 + 1)) (0 : BitVec t.bits)).length = 8 * ((viewElems rd n itemSize).length / 16 + 1) := by
      rw [hl, List.length_replicate]
    have ho : (List.replicate n (0 : BitVec t.bits)).length = n := List.length_replicate
    cases inPlace with
    | true =>
      obtain ⟨s, h3, _, h4⟩ := C22_completes t k (fun m => List.replicate m 0) (fun m => List.length_replicate) (viewElems rd n itemSize)
        none (fun _ h => by cases h) _ hw (by rw [hl]; omega) (by rw [hl]; exact hn) _ .start
      unfold ParRun at h3; rw [hl] at h3 hw
      exact ⟨s.a, .parallel _ (fun m => List.length_replicate) _ _ s h1 h2 hw ho (by simpa [threadedSource, viewElems, srcOf, startSort] using h3) h4⟩
    | false =>
      obtain ⟨s, h3, _, h4⟩ := C22_completes t k (fun m => List.replicate m 0) (fun m => List.length_replicate) (viewElems rd n itemSize)
        (some (List.replicate n 0)) (fun _ h => by injection h with h; rw [← h, hl, ho]) _ hw (by rw [hl]; omega) (by rw [hl]; exact hn) _ .start
      unfold ParRun at h3; rw [hl] at h3 hw
      exact ⟨s.a, .parallel _ (fun m => List.length_replicate) _ _ s h1 h2 hw ho (by simpa [threadedSource, viewElems, srcOf, startSort] using h3) h4⟩

/-! ### C47: sorting a view -/

/-- C47 (partial: strided views only below 65536 elements or with threads off, see `C47_strided_violated`): `_pnumpy.sort`
of a 1-D view returns, and returns exactly the elements of the view in ascending order; every type, kind, length, stride
(also negative and zero) and schedule. -/
theorem C47_sort_view_partial (t : DT) (k : Kind) (threads : Bool) (rd : Int → BitVec t.bits) (n : Nat) (hn : n < 2 ^ 63)
    (stride itemSize : Int) (hs : stride = itemSize ∨ n < 65536 ∨ threads = false) :
    (∃ r, PnSort (ops t) k threads rd n stride itemSize r) ∧
    ∀ r, PnSort (ops t) k threads rd n stride itemSize r → IsSortOf (before t) r (viewElems rd n stride) := by
  refine ⟨sortRun_exists t k false threads rd n hn stride itemSize, fun r h => ?_⟩
  have := sortRun_sound t k false threads rd n hn stride itemSize r h
  unfold sorted_elems at this
  rcases hs with h | h | h
  · rw [h, ite_self] at this; rw [h]; exact this
  · rw [if_pos ⟨rfl, Or.inr h⟩] at this; exact this
  · rw [if_pos ⟨rfl, Or.inl h⟩] at this; exact this

/-- Every second byte of 10 11 12 ..., backwards. -/
example : ∃ r, PnSort (ops .i8) .quick true (fun p => BitVec.ofInt 8 (10 + p)) 3 (-2) 1 r ∧
    IsSortOf (before .i8) r ([10#8, 8#8, 6#8] : List (BitVec DT.i8.bits)) := by
  obtain ⟨⟨r, h⟩, h2⟩ := C47_sort_view_partial .i8 .quick true (fun p => BitVec.ofInt 8 (10 + p)) 3 (by decide) (-2) 1 (Or.inr (Or.inl (by decide)))
  exact ⟨r, h, h2 r h⟩

/-- C47, violated: with threads, every strided view of at least 65536 elements whose data differ from the contiguous data is
sorted wrongly. Here: every second int8 of an array whose even bytes are 1 and whose odd bytes are 0: all elements of the
view are 1, and half of every result is 0. -/
theorem C47_strided_violated (k : Kind) (n : Nat) (h65 : 65536 ≤ n) (hn : n < 2 ^ 63) :
    let rd : Int → BitVec 8 := fun p => if p % 2 = 0 then 1#8 else 0#8
    (∀ x ∈ viewElems rd n 2, x = 1#8) ∧
    (∃ r, PnSort (ops .i8) k true rd n 2 1 r) ∧
    ∀ r, PnSort (ops .i8) k true rd n 2 1 r → (0#8 : BitVec 8) ∈ r ∧ ¬ IsSortOf (before .i8) r (viewElems rd n 2) := by
  intro rd
  have h1 : ∀ x ∈ viewElems rd n 2, x = 1#8 := by
    intro x hx
    obtain ⟨i, _, rfl⟩ := List.mem_map.1 hx
    exact if_pos (by omega)
  refine ⟨h1, sortRun_exists .i8 k false true rd n hn 2 1, fun r h => ?_⟩
  have := sortRun_sound .i8 k false true rd n hn 2 1 r h
  unfold sorted_elems at this
  rw [if_neg (by simp; omega)] at this
  have h0 : (0#8 : BitVec 8) ∈ r := this.1.mem_iff.2 (List.mem_map.2 ⟨1, List.mem_range.2 (by omega), if_neg (by decide)⟩)
  refine ⟨h0, fun hs => ?_⟩
  have : (0#8 : BitVec 8) = 1#8 := h1 _ (hs.1.mem_iff.1 h0)
  exact absurd this (by decide)

/-! ### C48, C50: np.sort through the hook -/

/-- C48 / C50 (partial: native byte order and aligned): np.sort of a 1-D array returns its elements in ascending order. -/
theorem C50_np_sort_partial (t : DT) (k : Kind) (threads : Bool) (rd : Int → BitVec t.bits) (n : Nat) (hn : n < 2 ^ 63)
    (stride1 itemSize : Int) :
    (∃ r, NpSort (ops t) k threads false true rd n stride1 itemSize r) ∧
    ∀ r, NpSort (ops t) k threads false true rd n stride1 itemSize r → IsSortOf (before t) r (viewElems rd n itemSize) := by
  constructor
  · obtain ⟨b, h⟩ := sortRun_exists t k true threads rd n hn stride1 itemSize
    exact ⟨b, b, h, rfl⟩
  · rintro r ⟨b, h, hrb⟩
    obtain rfl : r = b := hrb
    have := sortRun_sound t k true threads rd n hn stride1 itemSize r h
    simpa [sorted_elems] using this

example : ∃ r, NpSort (ops .u16) .heap true false true (fun p => BitVec.ofInt 16 (-p)) 100000 0 2 r ∧
    IsSortOf (before .u16) r (viewElems (fun p => BitVec.ofInt 16 (-p)) 100000 2) := by
  obtain ⟨⟨r, h⟩, h2⟩ := C50_np_sort_partial .u16 .heap true (fun p => BitVec.ofInt 16 (-p)) 100000 (by decide) 0 2
  exact ⟨r, h, h2 r h⟩

theorem bswap_involutive_32 : bswap (bswap (1 : BitVec 32)) = 1 := by decide

/-- C48, violated: np.sort of a big-endian int32 array of 1s (two or more, any length, any kind, any schedule, whatever the
stray stride is): the numbers of the array are all 1, and the first number of the array does not occur in the result,
which contains 0x01000000 instead. -/
theorem C48_byteswapped_violated (k : Kind) (threads aligned : Bool) (n : Nat) (h2 : 2 ≤ n) (hn : n < 2 ^ 63) (stride1 : Int) :
    let rd : Int → BitVec 32 := fun _ => bswap 1#32
    (∀ x ∈ (viewElems rd n 4).map bswap, x = 1#32) ∧
    (∃ r, NpSort (ops .i32) k threads true aligned rd n stride1 4 r) ∧
    ∀ r, NpSort (ops .i32) k threads true aligned rd n stride1 4 r →
      (∀ x ∈ r.map bswap, x = 0x01000000#32) ∧ ¬ IsSortOf (before .i32) (r.map bswap) ((viewElems rd n 4).map bswap) := by
  intro rd
  refine ⟨?_, ?_, ?_⟩
  · intro x hx
    obtain ⟨y, hy, rfl⟩ := List.mem_map.1 hx
    obtain ⟨i, _, rfl⟩ := List.mem_map.1 hy
    show bswap (bswap 1#32) = _
    decide
  · obtain ⟨b, h⟩ := sortRun_exists .i32 k false threads rd n hn stride1 4
    exact ⟨_, b, by simpa using h, rfl⟩
  · rintro r ⟨b, h, hrb⟩
    obtain rfl : r = b.map bswap := hrb
    have hb : ∀ s, ∀ x ∈ viewElems rd n s, x = bswap 1#32 := by
      intro s x hx
      obtain ⟨i, _, rfl⟩ := List.mem_map.1 hx
      rfl
    have hs := sortRun_sound .i32 k false threads rd n hn stride1 4 b (by simpa using h)
    have hall : ∀ x ∈ b, x = bswap 1#32 := by
      intro x hx
      have := hs.1.mem_iff.1 hx
      unfold sorted_elems at this
      split at this <;> exact hb _ x this
    have hres : ∀ x ∈ (b.map bswap).map bswap, x = 0x01000000#32 := by
      intro x hx
      obtain ⟨z, hz, rfl⟩ := List.mem_map.1 hx
      obtain ⟨y, hy, rfl⟩ := List.mem_map.1 hz
      rw [hall y hy]
      exact (by decide +kernel : bswap (bswap (bswap (1#32 : BitVec 32))) = (0x01000000#32 : BitVec 32))
    refine ⟨hres, fun hso => ?_⟩
    have hmem : (1#32 : BitVec 32) ∈ (viewElems rd n 4).map bswap :=
      List.mem_map.2 ⟨bswap 1#32, List.mem_map.2 ⟨0, List.mem_range.2 (by omega), rfl⟩, by decide +kernel⟩
    have : (1#32 : BitVec 32) = 0x01000000#32 := hres _ (hso.1.mem_iff.2 hmem)
    exact absurd this (by decide)

/-- C50, violated for misaligned arrays: the hook copies the data with the stride found *behind* the strides of the array.
Whenever that number is not the item size, two elements that differ from the memory found at the wrong place are
enough: here the array is 1, 2 and the result is 1, 1 (stray stride 0) - the 2 is lost. -/
theorem C50_misaligned_violated (k : Kind) (threads : Bool) :
    let rd : Int → BitVec 32 := fun p => if p = 4 then 2#32 else 1#32
    viewElems rd 2 4 = ([1#32, 2#32] : List (BitVec 32)) ∧ (∃ r, NpSort (ops .i32) k threads false false rd 2 0 4 r) ∧
    ∀ r, NpSort (ops .i32) k threads false false rd 2 0 4 r → r = ([1#32, 1#32] : List (BitVec 32)) := by
  intro rd
  refine ⟨by decide, ?_, ?_⟩
  · obtain ⟨b, h⟩ := sortRun_exists .i32 k false threads rd 2 (by decide) 0 4
    exact ⟨_, b, by simpa using h, rfl⟩
  · rintro r ⟨b, h, hrb⟩
    obtain rfl : r = b := hrb
    have hs := sortRun_sound .i32 k false threads rd 2 (by decide) 0 4 r (by simpa using h)
    have e : sorted_elems false threads rd 2 0 4 = ([1#32, 1#32] : List (BitVec 32)) := by
      unfold sorted_elems; rw [if_pos ⟨rfl, Or.inr (by decide)⟩]; decide
    have hs' : r.Perm (sorted_elems false threads rd 2 0 4) := hs.1
    have hs'' : r.Perm ([1#32, 1#32] : List (BitVec 32)) := e ▸ hs'
    exact (List.perm_replicate (n := 2) (a := (1#32 : BitVec 32))).1 hs''

/-! ### C29: pnumpy.sort(a, axis=None) -/

/-- C29, given axis (partial): the result is that of `ndarray.sort` on a copy. -/
theorem C29_axis_partial {α Axis : Type} (flatten : List α → List α) (last ax : Axis) (method : Axis → List α → Option (List α))
    (a : List α) : pySort flatten last method (some ax) a = method ax a := rfl

/-- C29, violated: whenever `ndarray.sort` works, `pnumpy.sort(a, axis=None)` returns the flattened array as it is; so the
result is in ascending order only if the input was. -/
theorem C29_flat_violated {α Axis : Type} (before : α → α → Prop) (flatten : List α → List α) (last : Axis)
    (method : Axis → List α → Option (List α)) (hm : ∀ l, ∃ l', method last l = some l' ∧ IsSortOf before l' l) (a : List α) :
    pySort flatten last method none a = some (flatten a) ∧
    (¬ Ascending before (flatten a) → ¬ ∃ r, pySort flatten last method none a = some r ∧ IsSortOf before r (flatten a)) := by
  have h : pySort flatten last method none a = some (flatten a) := by
    obtain ⟨l', h1, _⟩ := hm (flatten a)
    simp [pySort, h1]
  refine ⟨h, fun hna ⟨r, hr, hs⟩ => ?_⟩
  rw [h] at hr; obtain rfl := Option.some.inj hr
  exact hna hs.2

/-- 3 1 2 stays 3 1 2, with the merge sort of this library as `ndarray.sort`. -/
example : pySort (α := BitVec DT.i8.bits) id () (fun _ l => sortSerial (ops .i8) .merge l (List.replicate (l.length / 2) 0)) none
    [3#8, 1#8, 2#8] = some [3#8, 1#8, 2#8] := by
  have : ∃ b, sortSerial (ops .i8) .merge [3#8, 1#8, 2#8] (List.replicate (([3#8, 1#8, 2#8] : List (BitVec DT.i8.bits)).length / 2) 0) = some b := by
    obtain ⟨b, h, _⟩ := C18_sort_ascending .i8 .merge [3#8, 1#8, 2#8] (List.replicate (3 / 2) 0) rfl (by decide)
    exact ⟨b, h⟩
  obtain ⟨b, h⟩ := this
  unfold pySort
  simp only [id]
  rw [h]
  rfl

/-! ### C49: invalid cutoffs -/

/-- Number of entries the preparation loop writes. -/
theorem prepLoop_none (cut : List Nat) : ∀ (out : List Nat) (p s n : Nat), p ≤ out.length → cut.getLast? = some n →
    ∃ total : Nat, (prepLoop out p s cut = none ↔ out.length < p + total) ∧ (n : Int) - s ≤ total ∧
      ((total : Int) = n - s ↔ (s :: cut).Pairwise (· ≤ ·)) := by
  induction cut with
  | nil => intro out p s n _ h; simp at h
  | cons e cut ih =>
    intro out p s n hp hl
    have hchain : (s :: e :: cut).Pairwise (· ≤ ·) ↔ s ≤ e ∧ (e :: cut).Pairwise (· ≤ ·) := by
      constructor
      · intro h; exact ⟨(List.pairwise_cons.1 h).1 e (by simp), (List.pairwise_cons.1 h).2⟩
      · rintro ⟨h1, h2⟩
        refine List.pairwise_cons.2 ⟨fun x hx => ?_, h2⟩
        rcases List.mem_cons.1 hx with rfl | hx
        · exact h1
        · exact h1.trans ((List.pairwise_cons.1 h2).1 x hx)
    by_cases hfit : p + (e - s) ≤ out.length
    · have hb : blit (List.range (e - s)) 0 out p (e - s) =
          some (out.take p ++ ((List.range (e - s)).drop 0).take (e - s) ++ out.drop (p + (e - s))) := by
        unfold blit; rw [if_pos ⟨by simp, hfit⟩]
      have hlen : (out.take p ++ ((List.range (e - s)).drop 0).take (e - s) ++ out.drop (p + (e - s))).length = out.length := by
        simp; omega
      cases cut with
      | nil =>
        simp only [List.getLast?_singleton, Option.some.injEq] at hl
        subst hl
        refine ⟨e - s, ?_, by omega, ?_⟩
        · rw [prepLoop, hb]; simp [prepLoop]; omega
        · rw [hchain]; simp; omega
      | cons e' cut' =>
        obtain ⟨tot, h1, h2, h3⟩ := ih (out.take p ++ ((List.range (e - s)).drop 0).take (e - s) ++ out.drop (p + (e - s))) (p + (e - s)) e n
          (by rw [hlen]; exact hfit) (by simpa [List.getLast?_cons_cons] using hl)
        refine ⟨e - s + tot, ?_, by omega, ?_⟩
        · rw [prepLoop, hb]
          show prepLoop _ _ _ _ = none ↔ _
          rw [h1, hlen]; omega
        · rw [hchain, ← h3]; omega
    · have hb : blit (List.range (e - s)) 0 out p (e - s) = none := by
        unfold blit; rw [if_neg (fun h => hfit h.2)]
      have hnone : prepLoop out p s (e :: cut) = none := by rw [prepLoop, hb]; rfl
      cases cut with
      | nil =>
        simp only [List.getLast?_singleton, Option.some.injEq] at hl
        subst hl
        exact ⟨e - s, ⟨fun _ => by omega, fun _ => hnone⟩, by omega, by rw [hchain]; simp; omega⟩
      | cons e' cut' =>
        -- the rest of the total, counted on an array that is large enough
        obtain ⟨tot, _, h2, h3⟩ := ih [] 0 e n (by simp) (by simpa [List.getLast?_cons_cons] using hl)
        exact ⟨e - s + tot, ⟨fun _ => by omega, fun _ => hnone⟩, by omega, by rw [hchain, ← h3]; omega⟩

/-- C49, violated, exactly: the only check is that the last cutoff is the number of rows (`Lex.cutoffsAccepted`). Of the
cutoffs that pass, precisely those that are not ascending make the call write behind the end of the index array
(the checked model of the preparation loop fails). -/
theorem C49_writes_outside_iff_violated (cut : List Nat) (n : Nat) (h : cutoffsAccepted cut n) (out : List Nat) (ho : out.length = n) :
    prep cut out = none ↔ ¬ cut.Pairwise (· ≤ ·) := by
  obtain ⟨tot, h1, h2, h3⟩ := prepLoop_none cut out 0 0 n (by omega) h
  have h4 : (0 :: cut).Pairwise (· ≤ ·) ↔ cut.Pairwise (· ≤ ·) := by simp
  rw [prep, h1, ← h4, ← h3]; omega

/-- Hence for every number of rows some accepted arguments write outside. -/
theorem C49_accepted_violated (n : Nat) : ∃ cut, cutoffsAccepted cut n ∧
    ∀ cs out, out.length = n → prep cut out = none ∧ ∀ ix, ¬ CutRun cs cut out ix := by
  refine ⟨[n + 1, n], rfl, fun cs out ho => ?_⟩
  have h := (C49_writes_outside_iff_violated [n + 1, n] n rfl out ho).2 (by simp)
  exact ⟨h, fun ix ⟨_, h1, _⟩ => by rw [h] at h1; cases h1⟩

end Pnumpy.Props
