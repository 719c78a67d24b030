import Verif.Props.SortHooks
/-
Property theorems C46: float16 and `_pnumpy.sort`.
-/
namespace Pnumpy.Props
open Spec Pnumpy.Sort Pnumpy.ParSort Pnumpy.SortApi Pnumpy.Ieee

theorem half_mag (x : BitVec 16) : mag 5 10 x = x.toNat % 32768 := rfl

theorem half_nonneg {x y : BitVec 16} (hx : x.msb = false) (hy : y.msb = false) (h : halfBefore y x) : y.toNat < x.toNat := by
  have hx' : x.toNat < 32768 := by have := BitVec.msb_eq_false_iff_two_mul_lt.1 hx; omega
  have hy' : y.toNat < 32768 := by have := BitVec.msb_eq_false_iff_two_mul_lt.1 hy; omega
  unfold halfBefore at h
  rw [← flt_iff 5 10 (by decide), ← isNaN_iff, Ne, ← isNaN_iff] at h
  have e : ∀ z : BitVec 16, z.toNat < 32768 → mag 5 10 z = z.toNat ∧ neg 5 10 z = false := by
    intro z hz
    refine ⟨by rw [half_mag]; omega, ?_⟩
    simp only [neg]
    exact Nat.testBit_lt_two_pow hz
  simp only [flt, isNaN, key, e x hx', e y hy', Bool.and_eq_true, Bool.not_eq_true', decide_eq_true_eq, decide_eq_false_iff_not] at h
  simp at h
  omega

theorem half_neg {x y : BitVec 16} (hx : x.msb = true) (hy : y.msb = true) (h : (floatValue 5 10 x).lt (floatValue 5 10 y)) : y.toNat < x.toNat := by
  have hx' : 32768 ≤ x.toNat := by have := BitVec.msb_eq_true_iff_two_mul_ge.1 hx; omega
  have hy' : 32768 ≤ y.toNat := by have := BitVec.msb_eq_true_iff_two_mul_ge.1 hy; omega
  rw [← flt_iff 5 10 (by decide)] at h
  have e : ∀ z : BitVec 16, 32768 ≤ z.toNat → mag 5 10 z = z.toNat - 32768 ∧ neg 5 10 z = true := by
    intro z hz
    have := z.isLt
    refine ⟨by rw [half_mag]; omega, ?_⟩
    simp only [neg]
    rw [Nat.testBit_eq_decide_div_mod_eq, show (2 : Nat) ^ (5 + 10) = 32768 from rfl, show z.toNat / 32768 = 1 by omega]
    rfl
  simp only [flt, isNaN, key, e x hx', e y hy', Bool.and_eq_true, Bool.not_eq_true', decide_eq_true_eq, decide_eq_false_iff_not] at h
  simp at h
  omega

theorem ascending_u16 {l : List (BitVec 16)} (h : Ascending (before .u16) l) : l.Pairwise fun x y => x.toNat ≤ y.toNat := by
  refine h.imp fun {x y} h => ?_
  by_contra hlt
  have hlt : y.toNat < x.toNat := Nat.lt_of_not_le hlt
  exact h (Or.inl (Int.ofNat_lt.2 hlt))

theorem ascending_split {l : List (BitVec 16)} (h : l.Pairwise fun x y => x.toNat ≤ y.toNat) :
    l = l.filter (fun x => !x.msb) ++ l.filter (fun x => x.msb) := by
  induction l with
  | nil => rfl
  | cons x l ih =>
    rw [List.pairwise_cons] at h
    cases hx : x.msb with
    | false =>
      rw [List.filter_cons_of_pos (by simp [hx]), List.filter_cons_of_neg (by simp [hx]), List.cons_append, ← ih h.2]
    | true =>
      have hall : ∀ y ∈ x :: l, y.msb = true := by
        intro y hy
        have hx' := BitVec.msb_eq_true_iff_two_mul_ge.1 hx
        rcases List.mem_cons.1 hy with rfl | hy
        · exact hx
        · exact BitVec.msb_eq_true_iff_two_mul_ge.2 (by have := h.1 y hy; omega)
      rw [List.filter_eq_nil_iff.2 (by intro y hy; simp [hall y hy]), List.filter_eq_self.2 hall, List.nil_append]

/-- C46 (partial), what `_pnumpy.sort` of a float16 array does, whatever the kind and the schedule: the result has the same
elements; first come those without sign, ascending, NaNs last; then those with sign, *descending*. (Strided views of 65536
elements or more with threads: see C47.) -/
theorem C46_half_order_partial (k : Kind) (threads : Bool) (rd : Int → BitVec 16) (n : Nat) (hn : n < 2 ^ 63) (stride itemSize : Int)
    (hs : stride = itemSize ∨ n < 65536 ∨ threads = false) (r : List (BitVec 16)) (h : PnSort opsHalf k threads rd n stride itemSize r) :
    r.Perm (viewElems rd n stride) ∧
    ∃ pos neg : List (BitVec 16), r = pos ++ neg ∧ (∀ x ∈ pos, x.msb = false) ∧ (∀ x ∈ neg, x.msb = true) ∧
      Ascending halfBefore pos ∧ neg.Pairwise fun x y => ¬ (floatValue 5 10 x).lt (floatValue 5 10 y) := by
  obtain ⟨h1, h2⟩ := (C47_sort_view_partial .u16 k threads rd n hn stride itemSize hs).2 r h
  have h3 := ascending_u16 h2
  refine ⟨h1, _, _, ascending_split h3, fun x hx => by simpa using (List.mem_filter.1 hx).2,
    fun x hx => by simpa using (List.mem_filter.1 hx).2, ?_, ?_⟩
  · refine List.Pairwise.imp_of_mem (fun {x y} hx hy h hb => ?_) (h3.filter _)
    have := half_nonneg (by simpa using (List.mem_filter.1 hx).2) (by simpa using (List.mem_filter.1 hy).2) hb
    omega
  · refine List.Pairwise.imp_of_mem (fun {x y} hx hy h hb => ?_) (h3.filter _)
    have := half_neg (by simpa using (List.mem_filter.1 hx).2) (by simpa using (List.mem_filter.1 hy).2) hb
    omega

/-- C46 (partial): a float16 array without negative elements is sorted. -/
theorem C46_nonneg_partial (k : Kind) (threads : Bool) (rd : Int → BitVec 16) (n : Nat) (hn : n < 2 ^ 63) (stride itemSize : Int)
    (hs : stride = itemSize ∨ n < 65536 ∨ threads = false) (hpos : ∀ x ∈ viewElems rd n stride, x.msb = false) :
    (∃ r, PnSort opsHalf k threads rd n stride itemSize r) ∧
    ∀ r, PnSort opsHalf k threads rd n stride itemSize r → IsSortOf halfBefore r (viewElems rd n stride) := by
  refine ⟨sortRun_exists .u16 k false threads rd n hn stride itemSize, fun r h => ?_⟩
  obtain ⟨h1, pos, neg, rfl, h2, h3, h4, _⟩ := C46_half_order_partial k threads rd n hn stride itemSize hs r h
  cases neg with
  | nil => rw [List.append_nil] at *; exact ⟨h1, h4⟩
  | cons x l =>
    have := hpos x (h1.mem_iff.1 (by simp))
    rw [h3 x (by simp)] at this; cases this

/-- 2.0, NaN, 1.0: the NaN goes last. -/
def threeHalfs : Int → BitVec 16 := fun p => if p = 0 then 0x4000#16 else if p = 2 then 0x7e00#16 else 0x3c00#16

theorem threeHalfs_elems : viewElems threeHalfs 3 2 = [0x4000#16, 0x7e00#16, 0x3c00#16] := by decide

theorem threeHalfs_pos : ∀ x ∈ viewElems threeHalfs 3 2, x.msb = false := by
  rw [threeHalfs_elems]
  intro x hx
  rcases List.mem_cons.1 hx with rfl | hx
  · rfl
  rcases List.mem_cons.1 hx with rfl | hx
  · rfl
  rcases List.mem_cons.1 hx with rfl | hx
  · rfl
  · cases hx

example : ∃ r, PnSort opsHalf .quick true threeHalfs 3 2 2 r ∧ IsSortOf halfBefore r [0x4000#16, 0x7e00#16, 0x3c00#16] := by
  obtain ⟨⟨r, h⟩, h2⟩ := C46_nonneg_partial .quick true threeHalfs 3 (by decide) 2 2 (Or.inr (Or.inl (by decide))) threeHalfs_pos
  have := h2 r h
  rw [threeHalfs_elems] at this
  exact ⟨r, h, this⟩

/-- Case: -1.0, 2.0, -3.0. -/
example : ∃ r, PnSort opsHalf .quick true (fun p => if p = 0 then 0xbc00#16 else if p = 2 then 0x4000#16 else 0xc200#16) 3 2 2 r ∧
    r.Perm [0xbc00#16, 0x4000#16, 0xc200#16] := by
  obtain ⟨r, h⟩ := sortRun_exists .u16 .quick false true (fun p => if p = 0 then 0xbc00#16 else if p = 2 then 0x4000#16 else 0xc200#16) 3 (by decide) 2 2
  exact ⟨r, h, (C46_half_order_partial .quick true _ 3 (by decide) 2 2 (Or.inl rfl) r h).1⟩

end Pnumpy.Props
