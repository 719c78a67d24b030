import Verif.Proofs.TrigTaylor
/-
How far the polynomials of sin256/cos256 are from sin and cos: bounds by Bernstein coefficients.
-/
namespace Pnumpy.TrigTaylor

theorem bern5 (t : ℝ) (h0 : 0 ≤ t) (h1 : t ≤ 1) (b0 b1 b2 b3 b4 b5 c : ℝ) (k0 : |b0| ≤ c) (k1 : |b1| ≤ c) (k2 : |b2| ≤ c) (k3 : |b3| ≤ c) (k4 : |b4| ≤ c) (k5 : |b5| ≤ c) :
    |b0 * (1-t)^5 + 5 * b1 * t * (1-t)^4 + 10 * b2 * t^2 * (1-t)^3 + 10 * b3 * t^3 * (1-t)^2 + 5 * b4 * t^4 * (1-t) + b5 * t^5| ≤ c := by
  have hw : 0 ≤ 1 - t := by linarith
  have e : c = c * (1-t)^5 + 5 * c * t * (1-t)^4 + 10 * c * t^2 * (1-t)^3 + 10 * c * t^3 * (1-t)^2 + 5 * c * t^4 * (1-t) + c * t^5 := by ring
  generalize 1 - t = w at *
  rw [abs_le] at *
  have p0 : 0 ≤ w^5 := by positivity
  have p1 : 0 ≤ t * w^4 := by positivity
  have p2 : 0 ≤ t^2 * w^3 := by positivity
  have p3 : 0 ≤ t^3 * w^2 := by positivity
  have p4 : 0 ≤ t^4 * w := by positivity
  have p5 : 0 ≤ t^5 := by positivity
  have m : ∀ {b p : ℝ}, -c ≤ b ∧ b ≤ c → 0 ≤ p → -(c * p) ≤ b * p ∧ b * p ≤ c * p := fun hb hp =>
    ⟨by have := mul_le_mul_of_nonneg_right hb.1 hp; linarith, mul_le_mul_of_nonneg_right hb.2 hp⟩
  have q0 := m k0 p0; have q1 := m k1 p1; have q2 := m k2 p2; have q3 := m k3 p3; have q4 := m k4 p4; have q5 := m k5 p5
  constructor <;> nlinarith [q0.1, q0.2, q1.1, q1.2, q2.1, q2.2, q3.1, q3.2, q4.1, q4.2, q5.1, q5.2]

theorem bern4 (t : ℝ) (h0 : 0 ≤ t) (h1 : t ≤ 1) (b0 b1 b2 b3 b4 c : ℝ) (k0 : |b0| ≤ c) (k1 : |b1| ≤ c) (k2 : |b2| ≤ c) (k3 : |b3| ≤ c) (k4 : |b4| ≤ c) :
    |b0 * (1-t)^4 + 4 * b1 * t * (1-t)^3 + 6 * b2 * t^2 * (1-t)^2 + 4 * b3 * t^3 * (1-t) + b4 * t^4| ≤ c := by
  have hw : 0 ≤ 1 - t := by linarith
  have e : c = c * (1-t)^4 + 4 * c * t * (1-t)^3 + 6 * c * t^2 * (1-t)^2 + 4 * c * t^3 * (1-t) + c * t^4 := by ring
  generalize 1 - t = w at *
  rw [abs_le] at *
  have p0 : 0 ≤ w^4 := by positivity
  have p1 : 0 ≤ t * w^3 := by positivity
  have p2 : 0 ≤ t^2 * w^2 := by positivity
  have p3 : 0 ≤ t^3 * w := by positivity
  have p4 : 0 ≤ t^4 := by positivity
  have m : ∀ {b p : ℝ}, -c ≤ b ∧ b ≤ c → 0 ≤ p → -(c * p) ≤ b * p ∧ b * p ≤ c * p := fun hb hp =>
    ⟨by have := mul_le_mul_of_nonneg_right hb.1 hp; linarith, mul_le_mul_of_nonneg_right hb.2 hp⟩
  have q0 := m k0 p0; have q1 := m k1 p1; have q2 := m k2 p2; have q3 := m k3 p3; have q4 := m k4 p4
  constructor <;> nlinarith [q0.1, q0.2, q1.1, q1.2, q2.1, q2.2, q3.1, q3.2, q4.1, q4.2]

theorem sin_small (t : ℝ) (h0 : 0 ≤ t) (h1 : t ≤ 1) : |(-36167/300000000000) * ((6241/10000) * t)^0 + (1099181/937500000000) * ((6241/10000) * t)^1 + (-20536358867/6300000000000000) * ((6241/10000) * t)^2 + (1/362880) * ((6241/10000) * t)^3 + (-1/39916800) * ((6241/10000) * t)^4 + (1/6227020800) * ((6241/10000) * t)^5| ≤ (121/1000000000) := by
  have h := bern5 t h0 h1 (-36167/300000000000) (402964957/15625000000000000) (284565100010081773/6300000000000000000000000) (259098484903032871/56700000000000000000000000) (-589649307652080227/19800000000000000000000000) (4734195335659239828769/622702080000000000000000000000) (121/1000000000) (by norm_num [abs_le]) (by norm_num [abs_le]) (by norm_num [abs_le]) (by norm_num [abs_le]) (by norm_num [abs_le]) (by norm_num [abs_le])
  refine le_of_eq_of_le (congrArg abs ?_) h
  ring

theorem sin_large (t : ℝ) (h0 : 0 ≤ t) (h1 : t ≤ 1) : |(-36167/300000000000) * ((1390041/1000000) * t)^0 + (1099181/937500000000) * ((1390041/1000000) * t)^1 + (-20536358867/6300000000000000) * ((1390041/1000000) * t)^2 + (1/362880) * ((1390041/1000000) * t)^3 + (-1/39916800) * ((1390041/1000000) * t)^4 + (1/6227020800) * ((1390041/1000000) * t)^5| ≤ (63/25000000) := by
  have h := bern5 t h0 h1 (-36167/300000000000) (962797281421/4687500000000000000) (-2068526270346499971809/21000000000000000000000000000) (-6134112332887283196677/21000000000000000000000000000) (365421063388548200338507/1056000000000000000000000000000) (27670153571717071530628232463503/10982400000000000000000000000000000000) (63/25000000) (by norm_num [abs_le]) (by norm_num [abs_le]) (by norm_num [abs_le]) (by norm_num [abs_le]) (by norm_num [abs_le]) (by norm_num [abs_le])
  refine le_of_eq_of_le (congrArg abs ?_) h
  ring

theorem cos_small (t : ℝ) (h0 : 0 ≤ t) (h1 : t ≤ 1) : |(6295103519/300000000000000000) * ((6241/10000) * t)^0 + (-283074111223/1800000000000000000) * ((6241/10000) * t)^1 + (580277538993319/1575000000000000000000) * ((6241/10000) * t)^2 + (-1/3628800) * ((6241/10000) * t)^3 + (1/479001600) * ((6241/10000) * t)^4| ≤ (21/1000000000) := by
  have h := bern4 t h0 h1 (6295103519/300000000000000000) (-255840683582743/72000000000000000000000) (-3943536882626570241161/945000000000000000000000000000) (6740058402677072204551/2835000000000000000000000000000) (-1942521027775810544899/5847187500000000000000000000000) (21/1000000000) (by norm_num [abs_le]) (by norm_num [abs_le]) (by norm_num [abs_le]) (by norm_num [abs_le]) (by norm_num [abs_le])
  refine le_of_eq_of_le (congrArg abs ?_) h
  ring

theorem cos_large (t : ℝ) (h0 : 0 ≤ t) (h1 : t ≤ 1) : |(6295103519/300000000000000000) * ((1390041/1000000) * t)^0 + (-283074111223/1800000000000000000) * ((1390041/1000000) * t)^1 + (580277538993319/1575000000000000000000) * ((1390041/1000000) * t)^2 + (-1/3628800) * ((1390041/1000000) * t)^3 + (1/479001600) * ((1390041/1000000) * t)^4| ≤ (219/1000000000) := by
  have h := bern4 t h0 h1 (6295103519/300000000000000000) (-80800712060843381/2400000000000000000000000) (31846556196743446230265471/1050000000000000000000000000000000) (29334066230956567268921413/1050000000000000000000000000000000) (-2878772088227216975427652241/13200000000000000000000000000000000) (219/1000000000) (by norm_num [abs_le]) (by norm_num [abs_le]) (by norm_num [abs_le]) (by norm_num [abs_le]) (by norm_num [abs_le])
  refine le_of_eq_of_le (congrArg abs ?_) h
  ring

/-- The polynomials of avx_mathfun.h with the coefficients as written there. -/
noncomputable def sinP (r : ℝ) : ℝ := ((-1.9515295891E-4 * r^2 + 8.3321608736E-3) * r^2 + -1.6666654611E-1) * r^2 * r + r
noncomputable def cosP (r : ℝ) : ℝ := ((2.443315711809948E-5 * r^2 + -1.388731625493765E-3) * r^2 + 4.166664568298827E-2) * r^2 * r^2 - r^2 * (1/2) + 1

theorem poly_small (r : ℝ) (h : |r| ≤ (79/100)) : |sinP r - Real.sin r| ≤ (61/1000000000) ∧ |cosP r - Real.cos r| ≤ (9/1000000000) := by
  obtain ⟨ts, tc⟩ := taylor r (le_trans h (by norm_num))
  have hz : r^2 ≤ (6241/10000) := by
    have := pow_le_pow_left₀ (abs_nonneg r) h 2
    rw [sq_abs] at this; linarith
  have h0 : 0 ≤ r^2 / (6241/10000) := by positivity
  have h1 : r^2 / (6241/10000) ≤ 1 := by rw [div_le_one (by norm_num)]; exact hz
  have es := sin_small (r^2 / (6241/10000)) h0 h1
  have ec := cos_small (r^2 / (6241/10000)) h0 h1
  rw [mul_div_cancel₀ _ (by norm_num : (6241/10000) ≠ (0 : ℝ))] at es ec
  have r3 : |r^3| ≤ (493039/1000000) := by
    have := pow_le_pow_left₀ (abs_nonneg r) h 3
    rw [abs_pow]; linarith
  have r4 : |r^4| ≤ (38950081/100000000) := by
    have := pow_le_pow_left₀ (abs_nonneg r) h 4
    rw [abs_pow]; linarith
  constructor
  · have e : sinP r - Real.sin r = -(r^3 * ((-36167/300000000000) * (r^2)^0 + (1099181/937500000000) * (r^2)^1 + (-20536358867/6300000000000000) * (r^2)^2 + (1/362880) * (r^2)^3 + (-1/39916800) * (r^2)^4 + (1/6227020800) * (r^2)^5)) + (sinT r - Real.sin r) := by
      unfold sinP sinT; ring
    rw [e]
    refine le_trans (abs_add_le _ _) ?_
    rw [abs_neg, abs_mul, abs_sub_comm (sinT r)]
    have := mul_le_mul r3 es (abs_nonneg _) (by norm_num)
    linarith
  · have e : cosP r - Real.cos r = -(r^4 * ((6295103519/300000000000000000) * (r^2)^0 + (-283074111223/1800000000000000000) * (r^2)^1 + (580277538993319/1575000000000000000000) * (r^2)^2 + (-1/3628800) * (r^2)^3 + (1/479001600) * (r^2)^4)) + (cosT r - Real.cos r) := by
      unfold cosP cosT; ring
    rw [e]
    refine le_trans (abs_add_le _ _) ?_
    rw [abs_neg, abs_mul, abs_sub_comm (cosT r)]
    have := mul_le_mul r4 ec (abs_nonneg _) (by norm_num)
    linarith

theorem poly_large (r : ℝ) (h : |r| ≤ (1179/1000)) : |sinP r - Real.sin r| ≤ (207/50000000) ∧ |cosP r - Real.cos r| ≤ (43/100000000) := by
  obtain ⟨ts, tc⟩ := taylor r (le_trans h (by norm_num))
  have hz : r^2 ≤ (1390041/1000000) := by
    have := pow_le_pow_left₀ (abs_nonneg r) h 2
    rw [sq_abs] at this; linarith
  have h0 : 0 ≤ r^2 / (1390041/1000000) := by positivity
  have h1 : r^2 / (1390041/1000000) ≤ 1 := by rw [div_le_one (by norm_num)]; exact hz
  have es := sin_large (r^2 / (1390041/1000000)) h0 h1
  have ec := cos_large (r^2 / (1390041/1000000)) h0 h1
  rw [mul_div_cancel₀ _ (by norm_num : (1390041/1000000) ≠ (0 : ℝ))] at es ec
  have r3 : |r^3| ≤ (1638858339/1000000000) := by
    have := pow_le_pow_left₀ (abs_nonneg r) h 3
    rw [abs_pow]; linarith
  have r4 : |r^4| ≤ (1932213981681/1000000000000) := by
    have := pow_le_pow_left₀ (abs_nonneg r) h 4
    rw [abs_pow]; linarith
  constructor
  · have e : sinP r - Real.sin r = -(r^3 * ((-36167/300000000000) * (r^2)^0 + (1099181/937500000000) * (r^2)^1 + (-20536358867/6300000000000000) * (r^2)^2 + (1/362880) * (r^2)^3 + (-1/39916800) * (r^2)^4 + (1/6227020800) * (r^2)^5)) + (sinT r - Real.sin r) := by
      unfold sinP sinT; ring
    rw [e]
    refine le_trans (abs_add_le _ _) ?_
    rw [abs_neg, abs_mul, abs_sub_comm (sinT r)]
    have := mul_le_mul r3 es (abs_nonneg _) (by norm_num)
    linarith
  · have e : cosP r - Real.cos r = -(r^4 * ((6295103519/300000000000000000) * (r^2)^0 + (-283074111223/1800000000000000000) * (r^2)^1 + (580277538993319/1575000000000000000000) * (r^2)^2 + (-1/3628800) * (r^2)^3 + (1/479001600) * (r^2)^4)) + (cosT r - Real.cos r) := by
      unfold cosP cosT; ring
    rw [e]
    refine le_trans (abs_add_le _ _) ?_
    rw [abs_neg, abs_mul, abs_sub_comm (cosT r)]
    have := mul_le_mul r4 ec (abs_nonneg _) (by norm_num)
    linarith

end Pnumpy.TrigTaylor
