import Verif.Props.SortApi
import Mathlib.Tactic.Ring
/-
Property theorems C47, C48: exactly when sorting strided and byte-swapped arrays is right.
-/
namespace Pnumpy.Props
open Spec Pnumpy.Sort Pnumpy.ParSort Pnumpy.SortApi

/-- **C47, exactly when** (every type, kind, length, stride and schedule): the result of sorting a view of at least 65536 elements
with threads is right if and only if the view happens to hold the same elements, with the same multiplicities, as the memory
directly behind its first element; the elements of the view are otherwise not even looked at. -/
theorem C47_strided_iff_partial (t : DT) (k : Kind) (rd : Int → BitVec t.bits) (n : Nat) (h65 : 65536 ≤ n) (hn : n < 2 ^ 63)
    (stride itemSize : Int) :
    (∃ r, PnSort (ops t) k true rd n stride itemSize r) ∧
    ∀ r, PnSort (ops t) k true rd n stride itemSize r →
      ((r.Perm (viewElems rd n stride) ∧ Ascending (before t) r) ↔ (viewElems rd n stride).Perm (viewElems rd n itemSize)) := by
  refine ⟨sortRun_exists t k false true rd n hn stride itemSize, fun r h => ?_⟩
  have hs := sortRun_sound t k false true rd n hn stride itemSize r h
  unfold sorted_elems at hs
  rw [if_neg (by simp; omega)] at hs
  exact ⟨fun h' => h'.1.symm.trans hs.1, fun hp => ⟨hs.1.trans hp.symm, hs.2⟩⟩

/-- Reversed base-256 digits. -/
def revDigits (m x : Nat) : Nat := (List.range m).foldl (fun acc i => acc * 256 + x / 256 ^ i % 256) 0

theorem revDigits_succ (m x : Nat) : revDigits (m + 1) x = revDigits m x * 256 + x / 256 ^ m % 256 := by
  unfold revDigits; rw [List.range_succ, List.foldl_append]; rfl

theorem revDigits_low : ∀ m x, revDigits (m + 1) x = x % 256 * 256 ^ m + revDigits m (x / 256)
  | 0, x => by simp [revDigits]
  | m + 1, x => by
    rw [revDigits_succ (m + 1) x, revDigits_low m x, revDigits_succ m (x / 256), Nat.div_div_eq_div_mul, show 256 * 256 ^ m = 256 ^ (m + 1) by ring]
    ring

theorem revDigits_twice : ∀ m x, revDigits m (revDigits m x) = x % 256 ^ m
  | 0, x => by simp [revDigits, Nat.mod_one]
  | m + 1, x => by
    have h1 : revDigits (m + 1) x % 256 = x / 256 ^ m % 256 := by rw [revDigits_succ]; omega
    have h2 : revDigits (m + 1) x / 256 = revDigits m x := by rw [revDigits_succ]; omega
    rw [revDigits_low m (revDigits (m + 1) x), h1, h2, revDigits_twice m x, Nat.pow_succ, Nat.mod_mul]
    ring

theorem revDigits_lt (m x : Nat) : revDigits m x < 256 ^ m := by
  induction m with
  | zero => simp [revDigits]
  | succ m ih =>
    rw [revDigits_succ, Nat.pow_succ]
    have : x / 256 ^ m % 256 < 256 := Nat.mod_lt _ (by decide)
    omega

/-- Reversing the bytes twice gives the element back. -/
theorem bswap_bswap {b : Nat} (h8 : 8 ∣ b) (x : BitVec b) : bswap (bswap x) = x := by
  obtain ⟨m, rfl⟩ := h8
  have hp : 2 ^ (8 * m) = 256 ^ m := by rw [Nat.pow_mul]
  have hm : 8 * m / 8 = m := by omega
  apply BitVec.eq_of_toNat_eq
  unfold bswap
  rw [hm]
  show (BitVec.ofNat (8 * m) (revDigits m (BitVec.ofNat (8 * m) (revDigits m x.toNat)).toNat)).toNat = _
  rw [BitVec.toNat_ofNat, BitVec.toNat_ofNat, hp, Nat.mod_eq_of_lt (revDigits_lt m _), Nat.mod_eq_of_lt (revDigits_lt m _), revDigits_twice,
    ← hp, Nat.mod_eq_of_lt x.isLt]

/-- **C48, exactly when** (every type, kind, length and schedule): np.sort of an array of swapped byte order is right if and only if
the array's numbers, with their bytes reversed, are the same numbers in some order.  (The result has the numbers of the reversed
bytes in ascending order.) -/
theorem C48_byteswapped_iff_partial (t : DT) (k : Kind) (threads aligned : Bool) (rd : Int → BitVec t.bits) (n : Nat) (hn : n < 2 ^ 63)
    (stride1 itemSize : Int) (hst : stride1 = itemSize ∨ (threads = true ∧ 65536 ≤ n)) :
    (∃ r, NpSort (ops t) k threads true aligned rd n stride1 itemSize r) ∧
    ∀ r, NpSort (ops t) k threads true aligned rd n stride1 itemSize r →
      IsSortOf (before t) (r.map bswap) (viewElems rd n itemSize) ∧
      (IsSortOf (before t) (r.map bswap) ((viewElems rd n itemSize).map bswap) ↔
        ((viewElems rd n itemSize).map bswap).Perm (viewElems rd n itemSize)) := by
  have h8 : 8 ∣ t.bits := by cases t <;> decide
  constructor
  · obtain ⟨b, h⟩ := sortRun_exists t k false threads rd n hn stride1 itemSize
    exact ⟨b.map bswap, b, by simpa using h, rfl⟩
  · rintro r ⟨b, h, hrb⟩
    obtain rfl : r = b.map bswap := hrb
    have hs := sortRun_sound t k false threads rd n hn stride1 itemSize b (by simpa using h)
    have he : sorted_elems false threads rd n stride1 itemSize = viewElems rd n itemSize := by
      unfold sorted_elems
      split
      · next hc =>
        rcases hst with rfl | ⟨h1, h2⟩
        · rfl
        · rcases hc.2 with h3 | h3
          · rw [h1] at h3; cases h3
          · omega
      · rfl
    rw [he] at hs
    have hb : (b.map bswap).map bswap = b := by
      rw [List.map_map]
      exact (List.map_congr_left fun x _ => bswap_bswap h8 x).trans (List.map_id b)
    rw [hb]
    exact ⟨hs, fun h' => h'.1.symm.trans hs.1, fun hp => ⟨hs.1.trans hp.symm, hs.2⟩⟩

/-- **C50, exactly when** (misaligned array of native byte order; every type, kind, length): with threads and at least 65536 elements
np.sort is right; otherwise it sorts the elements found with the stray stride, and is right if and only if these are the array's
elements in some order. -/
theorem C50_misaligned_iff_partial (t : DT) (k : Kind) (threads : Bool) (rd : Int → BitVec t.bits) (n : Nat) (hn : n < 2 ^ 63)
    (stride1 itemSize : Int) (r : List (BitVec t.bits)) (h : NpSort (ops t) k threads false false rd n stride1 itemSize r) :
    IsSortOf (before t) r (viewElems rd n itemSize) ↔
      (threads = true ∧ 65536 ≤ n) ∨ (viewElems rd n stride1).Perm (viewElems rd n itemSize) := by
  obtain ⟨b, h, hrb⟩ := h
  obtain rfl : r = b := by simpa using hrb
  have hs := sortRun_sound t k false threads rd n hn stride1 itemSize r (by simpa using h)
  unfold sorted_elems at hs
  by_cases hc : threads = false ∨ n < 65536
  · rw [if_pos ⟨rfl, hc⟩] at hs
    constructor
    · exact fun h' => Or.inr (hs.1.symm.trans h'.1)
    · rintro (⟨h1, h2⟩ | hp)
      · rcases hc with h3 | h3
        · rw [h1] at h3; cases h3
        · omega
      · exact ⟨hs.1.trans hp, hs.2⟩
  · rw [if_neg fun h => hc h.2] at hs
    refine ⟨fun _ => Or.inl ⟨?_, ?_⟩, fun _ => hs⟩
    · cases threads
      · exact absurd (Or.inl rfl) hc
      · rfl
    · omega

/-- **C29, exactly when** (every array, order and line sort): `pnumpy.sort(a, axis=None)` is right if and only if the flattened array is
ascending already. -/
theorem C29_flat_iff_partial {α Axis : Type} (before : α → α → Prop) (flatten : List α → List α) (last : Axis)
    (method : Axis → List α → Option (List α)) (hm : ∀ l, ∃ l', method last l = some l' ∧ IsSortOf before l' l) (a : List α) :
    (∃ r, pySort flatten last method none a = some r ∧ IsSortOf before r (flatten a)) ↔ Ascending before (flatten a) := by
  obtain ⟨h1, h2⟩ := C29_flat_violated before flatten last method hm a
  exact ⟨fun h => Classical.byContradiction fun hc => h2 hc h, fun h => ⟨_, h1, List.Perm.refl _, h⟩⟩

/-- Cases: every second element of an array of constant bytes is sorted rightly, and so is a swapped array of zeros. -/
example := C47_strided_iff_partial .u8 .quick (fun _ => 7#8) 65536 (by decide) (by decide) 2 1
example : ∃ r, NpSort (ops .i32) .heap true true true (fun _ => 0#32) 5 4 4 r ∧
    IsSortOf (before .i32) (r.map bswap) ((viewElems (fun _ => 0#32) 5 4).map bswap) := by
  obtain ⟨⟨r, h⟩, h2⟩ := C48_byteswapped_iff_partial .i32 .heap true true (fun _ => 0#32) 5 (by decide) 4 4 (Or.inl rfl)
  exact ⟨r, h, (h2 r h).2.mpr (by decide)⟩
example : ∃ r, NpSort (ops .i32) .heap false false false (fun _ => 0#32) 5 0 4 r ∧ IsSortOf (before .i32) r (viewElems (fun _ => 0#32) 5 4) := by
  obtain ⟨b, h⟩ := sortRun_exists .i32 .heap false false (fun _ => 0#32) 5 (by decide) 0 4
  exact ⟨b, ⟨b, h, rfl⟩, (C50_misaligned_iff_partial .i32 .heap false (fun _ => 0#32) 5 (by decide) 0 4 b ⟨b, h, rfl⟩).mpr (Or.inr (by decide))⟩

example := C29_flat_iff_partial (fun x y : Nat => x < y) id () (fun _ l => some (l.mergeSort (fun x y => decide (x ≤ y))))
  (fun l => ⟨_, rfl, List.mergeSort_perm l _, (List.pairwise_mergeSort (le := fun x y : Nat => decide (x ≤ y)) (fun a b c => by simpa using Nat.le_trans)
    (fun a b => by simpa using Nat.le_total a b) l).imp fun h => by simpa using h⟩) [2, 1, 3]

end Pnumpy.Props
