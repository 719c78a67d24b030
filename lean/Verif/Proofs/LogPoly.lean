import Mathlib.Analysis.SpecialFunctions.Log.Deriv
import Mathlib.Data.Rat.Cast.Order
/-
How far the polynomial of log256 is from log(1+r): a Taylor polynomial of log, and a bound for the difference by recentring it in 40 intervals.
-/
namespace Pnumpy.LogPoly

/-- The polynomial with the coefficients of a list, lowest first. -/
def evalQ : List ℚ → ℝ → ℝ
  | [], _ => 0
  | a :: p, x => a + x * evalQ p x

/-- Sum of coefficient lists. -/
def addQ : List ℚ → List ℚ → List ℚ
  | [], q => q
  | p, [] => p
  | a :: p, b :: q => (a + b) :: addQ p q

/-- The coefficients around `c`. -/
def shift (c : ℚ) : List ℚ → List ℚ
  | [] => []
  | a :: p => addQ (a :: shift c p) ((shift c p).map (c * ·))

/-- `Σ |p_i| h^i`. -/
def absSum (h : ℚ) : List ℚ → ℚ
  | [] => 0
  | a :: p => |a| + h * absSum h p

theorem evalQ_add (x : ℝ) : ∀ p q, evalQ (addQ p q) x = evalQ p x + evalQ q x
  | [], q => by simp [addQ, evalQ]
  | a :: p, [] => by simp [addQ, evalQ]
  | a :: p, b :: q => by simp only [addQ, evalQ, evalQ_add x p q]; push_cast; ring

theorem evalQ_map (x : ℝ) (c : ℚ) : ∀ p : List ℚ, evalQ (p.map (c * ·)) x = c * evalQ p x
  | [] => by simp [evalQ]
  | a :: p => by simp only [List.map_cons, evalQ, evalQ_map x c p]; push_cast; ring

theorem evalQ_shift (c : ℚ) (x : ℝ) : ∀ p, evalQ (shift c p) x = evalQ p (c + x)
  | [] => rfl
  | a :: p => by simp only [shift, evalQ_add, evalQ_map, evalQ, evalQ_shift c x p]; ring

theorem absSum_nonneg (h : ℚ) (h0 : 0 ≤ h) : ∀ p, 0 ≤ absSum h p
  | [] => le_refl _
  | a :: p => add_nonneg (abs_nonneg a) (mul_nonneg h0 (absSum_nonneg h h0 p))

theorem evalQ_bound (h : ℚ) (x : ℝ) (hx : |x| ≤ h) : ∀ p, |evalQ p x| ≤ (absSum h p : ℚ)
  | [] => by simp [evalQ, absSum]
  | a :: p => by
    have ih := evalQ_bound h x hx p
    have h0 : (0 : ℝ) ≤ h := le_trans (abs_nonneg _) hx
    simp only [evalQ, absSum]
    push_cast
    refine le_trans (abs_add_le _ _) (add_le_add (le_refl _) ?_)
    rw [abs_mul]
    exact mul_le_mul hx ih (abs_nonneg _) h0

/-- Every piece `[lo + 2hi, lo + 2h(i+1)]`, `i < k`, has the bound `b`. -/
def check (p : List ℚ) (lo h b : ℚ) : Nat → Bool
  | 0 => true
  | k + 1 => decide (absSum h (shift (lo + h * (2 * k + 1)) p) ≤ b) && check p lo h b k

theorem check_bound (p : List ℚ) (lo h b : ℚ) (hh : 0 < h) : ∀ k, check p lo h b k = true → ∀ x : ℝ, lo ≤ x → x < lo + h * (2 * k) → |evalQ p x| ≤ b
  | 0, _, x, h1, h2 => by exfalso; simp at h2; linarith
  | k + 1, hc, x, h1, h2 => by
    rw [check, Bool.and_eq_true, decide_eq_true_iff] at hc
    by_cases hx : x < lo + h * (2 * k)
    · exact check_bound p lo h b hh k hc.2 x h1 hx
    · push_cast at h2
      have := evalQ_bound h (x - ((lo + h * (2 * k + 1) : ℚ) : ℝ)) (by rw [abs_le]; push_cast; constructor <;> nlinarith) (shift (lo + h * (2 * k + 1)) p)
      rw [evalQ_shift, add_sub_cancel] at this
      exact le_trans this (by exact_mod_cast hc.1)

/-- `(p(r) - T(r)) / r^3` for the code's polynomial `p` and the Taylor polynomial `T` of `log(1+r)` of degree 26. -/
def diffP : List ℚ := [3.3333331174E-1 - 1/3, -2.4999993993E-1 + 1/4, 2.0000714765E-1 - 1/5, -1.6668057665E-1 + 1/6, 1.4249322787E-1 - 1/7, -1.2420140846E-1 + 1/8,
  1.1676998740E-1 - 1/9, -1.1514610310E-1 + 1/10, 7.0376836292E-2 - 1/11, 1/12, -1/13, 1/14, -1/15, 1/16, -1/17, 1/18, -1/19, 1/20, -1/21, 1/22, -1/23, 1/24, -1/25, 1/26]

theorem diffP_check : check diffP (-0.2929) 0.00884 0.000000053 40 = true := by decide +kernel

theorem diffP_bound (r : ℝ) (h1 : -0.2929 ≤ r) (h2 : r ≤ 0.41422) : |evalQ diffP r| ≤ 53 / 10 ^ 9 := by
  have := check_bound _ _ _ _ (by norm_num) _ diffP_check r (by push_cast; norm_num at *; linarith) (by push_cast; norm_num at *; linarith)
  refine le_trans this ?_
  push_cast; norm_num

/-- The polynomial of log256 over the reals: an approximation of `log (1 + r)`. -/
noncomputable def logP (r : ℝ) : ℝ :=
  r - r * r * (1/2) + ((((((((7.0376836292E-2 * r + -1.1514610310E-1) * r + 1.1676998740E-1) * r + -1.2420140846E-1) * r + 1.4249322787E-1) * r + -1.6668057665E-1) * r
    + 2.0000714765E-1) * r + -2.4999993993E-1) * r + 3.3333331174E-1) * r * (r * r)

theorem logP_close (r : ℝ) (h1 : -0.2929 ≤ r) (h2 : r ≤ 0.41422) : |logP r - Real.log (1 + r)| ≤ 6 / 10 ^ 8 * |r| ^ 3 := by
  have ha : |r| ≤ 0.41422 := by rw [abs_le]; constructor <;> linarith
  have hb := Real.abs_log_sub_add_sum_range_le (x := -r) (by rw [abs_neg]; linarith) 26
  rw [abs_neg, sub_neg_eq_add] at hb
  have e : ∑ i ∈ Finset.range 26, (-r) ^ (i + 1) / ((i : ℝ) + 1) = r ^ 3 * evalQ diffP r - logP r := by
    simp only [Finset.sum_range_succ, Finset.sum_range_zero, diffP, evalQ, logP]
    push_cast
    ring
  rw [e] at hb
  have hrem : |r| ^ (26 + 1) / (1 - |r|) ≤ 2 / 10 ^ 9 * |r| ^ 3 := by
    have h3 : |r| ^ 24 ≤ 0.41422 ^ 24 := pow_le_pow_left₀ (abs_nonneg _) ha 24
    have h4 : (0 : ℝ) < 1 - |r| := by linarith
    rw [div_le_iff₀ h4, show |r| ^ (26 + 1) = |r| ^ 24 * |r| ^ 3 by ring]
    have h5 : |r| ^ 24 ≤ 2 / 10 ^ 9 * (1 - |r|) := by
      refine le_trans h3 ?_
      have : (0.41422 : ℝ) ^ 24 ≤ 2 / 10 ^ 9 * 0.58578 := by norm_num
      linarith
    have := mul_le_mul_of_nonneg_right h5 (pow_nonneg (abs_nonneg r) 3)
    linarith
  have hd := diffP_bound r h1 h2
  have hm : |r ^ 3 * evalQ diffP r| ≤ 53 / 10 ^ 9 * |r| ^ 3 := by
    rw [abs_mul, abs_pow, mul_comm]
    exact mul_le_mul_of_nonneg_right hd (by positivity)
  have hc := le_trans hb hrem
  have hs : |logP r - Real.log (1 + r)| ≤ |r ^ 3 * evalQ diffP r| + |r ^ 3 * evalQ diffP r - logP r + Real.log (1 + r)| := by
    have e2 : logP r - Real.log (1 + r) = r ^ 3 * evalQ diffP r - (r ^ 3 * evalQ diffP r - logP r + Real.log (1 + r)) := by ring
    rw [e2]
    refine le_trans (abs_sub _ _) (le_of_eq ?_)
    congr 2
  have h0 : 0 ≤ |r| ^ 3 := by positivity
  generalize |r| ^ 3 = R at *
  linarith

end Pnumpy.LogPoly
