import Verif.Props.HalfSort
/-
Property theorem C46: exactly when `_pnumpy.sort` of a float16 array is right.
-/
namespace Pnumpy.Props
open Spec Pnumpy.Sort Pnumpy.ParSort Pnumpy.SortApi Pnumpy.Ieee

theorem half_across {x y : BitVec 16} (hx : x.msb = true) (hy : y.msb = false) : y.toNat < x.toNat := by
  have hx' := BitVec.msb_eq_true_iff_two_mul_ge.1 hx
  have hy' := BitVec.msb_eq_false_iff_two_mul_lt.1 hy
  omega

/-- A signed NaN has more bits than a signed number. -/
theorem half_nan_after {x y : BitVec 16} (hy : y.msb = true) (hx : x.msb = true) (hn : floatValue 5 10 y ≠ .nan)
    (h : floatValue 5 10 x = .nan) : y.toNat < x.toNat := by
  have hx' := BitVec.msb_eq_true_iff_two_mul_ge.1 hx
  have hy' := BitVec.msb_eq_true_iff_two_mul_ge.1 hy
  rw [← isNaN_iff] at h
  rw [Ne, ← isNaN_iff] at hn
  unfold isNaN at h hn
  rw [half_mag] at h hn
  simp at h hn
  have := x.isLt
  have := y.isLt
  omega

/-- **C46, exactly when** (every array, kind, length and schedule): `_pnumpy.sort` of a float16 array is right if and only if no number
with its sign bit set belongs before another element, other than NaNs with their sign bits set: all signed numbers
of the array are equal, and there is nothing else but smaller or equal numbers and signed NaNs. -/
theorem C46_half_iff_partial (k : Kind) (threads : Bool) (rd : Int → BitVec 16) (n : Nat) (hn : n < 2 ^ 63) (stride itemSize : Int)
    (hs : stride = itemSize ∨ n < 65536 ∨ threads = false) :
    (∃ r, PnSort opsHalf k threads rd n stride itemSize r) ∧
    ∀ r, PnSort opsHalf k threads rd n stride itemSize r →
      (IsSortOf halfBefore r (viewElems rd n stride) ↔
        ∀ x ∈ viewElems rd n stride, x.msb = true → ∀ y ∈ viewElems rd n stride, halfBefore x y →
          floatValue 5 10 y = .nan ∧ y.msb = true) := by
  refine ⟨sortRun_exists .u16 k false threads rd n hn stride itemSize, fun r h => ?_⟩
  obtain ⟨hp, ha⟩ := (C47_sort_view_partial .u16 k threads rd n hn stride itemSize hs).2 r h
  have ha := ascending_u16 ha
  constructor
  · intro hr x hx hm y hy hb
    refine Classical.byContradiction fun hc => ?_
    have hlt : y.toNat < x.toNat := by
      cases hy' : y.msb with
      | false => exact half_across hm hy'
      | true =>
        refine half_neg hm hy' ?_
        rcases hb with h | ⟨h1, h2⟩
        · exact h
        · exact absurd ⟨h1, hy'⟩ hc
    have hb' := List.pairwise_iff_getElem.1 hr.2
    have ha' := List.pairwise_iff_getElem.1 ha
    obtain ⟨i, hi, rfl⟩ := List.getElem_of_mem (hp.mem_iff.2 hx)
    obtain ⟨j, hj, rfl⟩ := List.getElem_of_mem (hp.mem_iff.2 hy)
    rcases Nat.lt_trichotomy i j with h | h | h
    · exact absurd (ha' i j hi hj h) (Nat.not_le.2 hlt)
    · subst h; exact absurd hlt (Nat.lt_irrefl _)
    · exact hb' j i hj hi h hb
  · intro hc
    refine ⟨hp, List.Pairwise.imp_of_mem (fun {x y} hx hy h hb => ?_) ha⟩
    have hx' := hp.mem_iff.1 hx
    have hy' := hp.mem_iff.1 hy
    cases hm : y.msb with
    | true =>
      obtain ⟨h1, h2⟩ := hc y hy' hm x hx' hb
      have hlt : (floatValue 5 10 y) ≠ .nan := by
        rcases hb with h | ⟨h3, h4⟩
        · rw [h1] at h; cases hv : floatValue 5 10 y <;> rw [hv] at h <;> exact h.elim
        · exact h4
      exact absurd (half_nan_after hm h2 hlt h1) (Nat.not_lt.2 h)
    | false =>
      cases hxm : x.msb with
      | false => have := half_nonneg hxm hm hb; omega
      | true => have := half_across hxm hm; omega
/-- Case: -0.5, -NaN, -0.5 comes out right. -/
def signedHalfs : Int → BitVec 16 := fun p => if p = 2 then 0xfe00#16 else 0xb800#16
/-- Case: 1.0, -0.5 comes out wrong. -/
def mixedHalfs : Int → BitVec 16 := fun p => if p = 0 then 0x3c00#16 else 0xb800#16

theorem halfBefore_bits (x y : BitVec 16) : halfBefore x y ↔ flt 5 10 x y = true ∨ (isNaN 5 10 y = true ∧ ¬ isNaN 5 10 x = true) := by
  unfold halfBefore
  rw [flt_iff 5 10 (by decide), isNaN_iff, isNaN_iff]

theorem signedHalfs_elems : viewElems signedHalfs 3 2 = [0xb800#16, 0xfe00#16, 0xb800#16] := by decide
theorem mixedHalfs_elems : viewElems mixedHalfs 2 2 = [0x3c00#16, 0xb800#16] := by decide

theorem signedHalfs_ok : ∀ x ∈ [0xb800#16, 0xfe00#16, 0xb800#16], x.msb = true → ∀ y ∈ [0xb800#16, 0xfe00#16, 0xb800#16], halfBefore x y →
    floatValue 5 10 y = .nan ∧ y.msb = true := by
  have e1 : ¬ halfBefore 0xb800#16 0xb800#16 := by rw [halfBefore_bits]; decide
  have e2 : ¬ halfBefore 0xfe00#16 0xb800#16 := by rw [halfBefore_bits]; decide
  have e3 : isNaN 5 10 0xfe00#16 = true := by decide
  intro x hx _ y hy hb
  simp only [List.mem_cons, List.not_mem_nil, or_false] at hx hy
  rcases hy with rfl | rfl | rfl
  · rcases hx with rfl | rfl | rfl
    · exact absurd hb e1
    · exact absurd hb e2
    · exact absurd hb e1
  · exact ⟨(isNaN_iff 5 10 _).1 e3, rfl⟩
  · rcases hx with rfl | rfl | rfl
    · exact absurd hb e1
    · exact absurd hb e2
    · exact absurd hb e1

theorem mixedHalfs_bad : halfBefore 0xb800#16 0x3c00#16 := by
  rw [halfBefore_bits]
  decide

example : ∃ r, PnSort opsHalf .merge true signedHalfs 3 2 2 r ∧ IsSortOf halfBefore r [0xb800#16, 0xfe00#16, 0xb800#16] := by
  obtain ⟨⟨r, h⟩, h2⟩ := C46_half_iff_partial .merge true signedHalfs 3 (by decide) 2 2 (Or.inr (Or.inl (by decide)))
  have h2 := h2 r h
  rw [signedHalfs_elems] at h2
  exact ⟨r, h, h2.2 signedHalfs_ok⟩
example : ∃ r, PnSort opsHalf .merge true mixedHalfs 2 2 2 r ∧ ¬ IsSortOf halfBefore r [0x3c00#16, 0xb800#16] := by
  obtain ⟨⟨r, h⟩, h2⟩ := C46_half_iff_partial .merge true mixedHalfs 2 (by decide) 2 2 (Or.inr (Or.inl (by decide)))
  have h2 := h2 r h
  rw [mixedHalfs_elems] at h2
  refine ⟨r, h, fun hc => absurd (h2.1 hc 0xb800#16 (by simp) rfl 0x3c00#16 (by simp) mixedHalfs_bad).2 (by decide)⟩

end Pnumpy.Props
