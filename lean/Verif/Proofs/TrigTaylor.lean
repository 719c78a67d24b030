import Mathlib.Analysis.Complex.Trigonometric
import Mathlib.Analysis.Complex.Exponential
import Mathlib.Analysis.Real.Pi.Bounds
import Mathlib.Tactic.NormNum
import Mathlib.Tactic.LinearCombination
/-
Taylor polynomials of sin and cos with explicit remainder.
-/
namespace Pnumpy.TrigTaylor
open Finset

/-- The Taylor polynomials up to degree 13 and 12. -/
noncomputable def sinT (r : ℝ) : ℝ := r - r^3/6 + r^5/120 - r^7/5040 + r^9/362880 - r^11/39916800 + r^13/6227020800
noncomputable def cosT (r : ℝ) : ℝ := 1 - r^2/2 + r^4/24 - r^6/720 + r^8/40320 - r^10/3628800 + r^12/479001600

theorem taylor (r : ℝ) (h : |r| ≤ 6/5) : |Real.sin r - sinT r| ≤ 4 / 10^10 ∧ |Real.cos r - cosT r| ≤ 4 / 10^10 := by
  have hn : ‖(r : ℂ) * Complex.I‖ = |r| := by simp
  have hb := Complex.exp_bound' (x := (r : ℂ) * Complex.I) (n := 14) (by
    rw [hn]; push_cast; linarith)
  rw [hn] at hb
  have hsum : (∑ m ∈ range 14, ((r : ℂ) * Complex.I) ^ m / (m.factorial : ℂ)) = (cosT r : ℂ) + (sinT r : ℂ) * Complex.I := by
    have i2 : Complex.I ^ 2 = -1 := Complex.I_sq
    simp only [sum_range_succ, sum_range_zero, Nat.factorial, sinT, cosT]
    push_cast
    have i3 : Complex.I ^ 3 = -Complex.I := by linear_combination Complex.I * i2
    have i4 : Complex.I ^ 4 = 1 := by linear_combination (Complex.I ^ 2 - 1) * i2
    have i5 : Complex.I ^ 5 = Complex.I := by linear_combination Complex.I * i4
    have i6 : Complex.I ^ 6 = -1 := by linear_combination Complex.I ^ 2 * i4 + i2
    have i7 : Complex.I ^ 7 = -Complex.I := by linear_combination Complex.I * i6
    have i8 : Complex.I ^ 8 = 1 := by linear_combination (Complex.I ^ 4 + 1) * i4
    have i9 : Complex.I ^ 9 = Complex.I := by linear_combination Complex.I * i8
    have i10 : Complex.I ^ 10 = -1 := by linear_combination Complex.I ^ 2 * i8 + i2
    have i11 : Complex.I ^ 11 = -Complex.I := by linear_combination Complex.I * i10
    have i12 : Complex.I ^ 12 = 1 := by linear_combination Complex.I ^ 4 * i8 + i4
    have i13 : Complex.I ^ 13 = Complex.I := by linear_combination Complex.I * i12
    simp only [mul_pow, i2, i3, i4, i5, i6, i7, i8, i9, i10, i11, i12, i13]
    ring
  rw [hsum, Complex.exp_mul_I, ← Complex.ofReal_cos, ← Complex.ofReal_sin] at hb
  have he : (Real.cos r : ℂ) + (Real.sin r : ℂ) * Complex.I - ((cosT r : ℂ) + (sinT r : ℂ) * Complex.I) =
      ((Real.cos r - cosT r : ℝ) : ℂ) + ((Real.sin r - sinT r : ℝ) : ℂ) * Complex.I := by push_cast; ring
  rw [he] at hb
  have hbound : |r| ^ 14 / ((14 : ℕ).factorial : ℝ) * 2 ≤ 4 / 10^10 := by
    have : |r| ^ 14 ≤ (6/5 : ℝ) ^ 14 := pow_le_pow_left₀ (abs_nonneg r) h 14
    have hf : ((14 : ℕ).factorial : ℝ) = 87178291200 := by norm_num [Nat.factorial]
    rw [hf]
    have h2 : ((6:ℝ)/5) ^ 14 ≤ 13 := by norm_num
    linarith
  generalize Real.cos r - cosT r = c at *
  generalize Real.sin r - sinT r = s at *
  constructor
  · refine le_trans ?_ (le_trans hb hbound)
    have := Complex.abs_im_le_norm ((c : ℂ) + (s : ℂ) * Complex.I)
    simpa using this
  · refine le_trans ?_ (le_trans hb hbound)
    have := Complex.abs_re_le_norm ((c : ℂ) + (s : ℂ) * Complex.I)
    simpa using this

end Pnumpy.TrigTaylor
