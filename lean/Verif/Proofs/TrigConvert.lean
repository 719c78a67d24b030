import Verif.Proofs.TrigConst
/-
The conversions of sin256/cos256 between floats and integers.
-/
namespace Pnumpy.Props
open Spec Ieee Trig

theorem fourOverPi_bounds : 1.2732 ≤ 4 / Real.pi ∧ 4 / Real.pi ≤ 1.27324 := by
  have h1 := Real.pi_gt_d20
  have h2 := Real.pi_lt_d20
  have hp := Real.pi_pos
  rw [le_div_iff₀ hp, div_le_iff₀ hp]
  norm_num at *
  constructor <;> linarith

/-- Angle from quotient: `|x - j*pi/4| ≤ D*pi/4` when the quotient `x*4/pi` is within `D` of `j`. -/
theorem angle {a D : ℝ} {j : Nat} (h : |a * (4 / Real.pi) - j| ≤ D) : |a - j * (Real.pi / 4)| ≤ D * 0.78539817 := by
  have hp := Real.pi_pos
  have h2 := Real.pi_lt_d20
  have e : a - j * (Real.pi / 4) = (a * (4 / Real.pi) - j) * (Real.pi / 4) := by field_simp
  rw [e, abs_mul, abs_of_pos (by positivity : 0 < Real.pi / 4)]
  have hD := le_trans (abs_nonneg _) h
  refine mul_le_mul h (by norm_num at *; linarith) (by positivity) hD

/-! ### float: truncation -/

theorem convert_ps {F : FloatUnit} (hF : IeeeArith F 8 23 32) {cv : Cvt} (hcv : IeeeCvt cv) {x : BitVec 32} {n : Nat} (hx : floatValue 8 23 x = .fin n)
    (hn : (n : ℝ) / floatUnit 8 23 ≤ 8192) :
    ∃ q : Nat, q ≤ 10435 ∧ (ps cv.tt cv.epi).toInt (F.mul 32 x (ps cv.tt cv.epi).fopi) = BitVec.ofNat 32 q ∧
      |(n : ℝ) / floatUnit 8 23 * (4 / Real.pi) - (2 * ((q + 1) / 2) : Nat)| ≤ 1.004 := by
  have hU := unitR_pos 8 23
  have hu := unit_pos 8 23
  obtain ⟨f1, f2⟩ := fourOverPi_bounds
  have ha0 : 0 ≤ (n : ℝ) / floatUnit 8 23 := by positivity
  have hxc : Close 8 23 x ((n : ℝ) / floatUnit 8 23) 0 := ⟨n, hx, by simp⟩
  obtain ⟨w, hw, hwe⟩ := Close.mul Fmt.f32 hF hxc (fopi_ps cv.tt cv.epi) (A := 8192) (B := 1.2733) (by rw [abs_of_nonneg ha0]; linarith)
    (by rw [abs_of_nonneg (by positivity)]; norm_num at *; linarith) (by norm_num)
  have ht := tiny Fmt.f32
  have hwe' : |(w : ℝ) / floatUnit 8 23 - (n : ℝ) / floatUnit 8 23 * (4 / Real.pi)| ≤ 0.0012 := by
    refine le_trans hwe ?_
    norm_num at *; linarith
  clear hwe
  generalize ha : (n : ℝ) / floatUnit 8 23 = a at *
  have hprod : a * (4 / Real.pi) ≤ 8192 * 1.27324 := mul_le_mul hn f2 (by positivity) (by norm_num)
  have hprod0 : 0 ≤ a * (4 / Real.pi) := by positivity
  obtain ⟨g1, g2⟩ := abs_le.mp hwe'
  clear hwe'
  -- the truncated value
  have key : ∃ q : Nat, w.tdiv (floatUnit 8 23) = q ∧ (q : ℝ) - 0.0012 ≤ (w : ℝ) / floatUnit 8 23 + 0.0012 ∧ (w : ℝ) / floatUnit 8 23 < q + 1 ∧ (q : ℝ) ≤ 10435 := by
    by_cases h0 : 0 ≤ w
    · have h1 : w.tdiv (floatUnit 8 23) = w / floatUnit 8 23 := Int.tdiv_eq_ediv_of_nonneg h0
      have h2 : 0 ≤ w / floatUnit 8 23 := Int.ediv_nonneg h0 (by omega)
      have h3 : w / floatUnit 8 23 * floatUnit 8 23 ≤ w := Int.ediv_mul_le _ (by omega)
      have h4 : w < (w / floatUnit 8 23 + 1) * floatUnit 8 23 := Int.lt_ediv_add_one_mul_self _ hu
      obtain ⟨q, hq⟩ := Int.eq_ofNat_of_zero_le h2
      rw [hq] at h1 h3 h4
      have h3' : (q : ℝ) * floatUnit 8 23 ≤ w := by exact_mod_cast h3
      have h4' : (w : ℝ) < (q + 1) * floatUnit 8 23 := by exact_mod_cast h4
      have h5 : (q : ℝ) ≤ (w : ℝ) / floatUnit 8 23 := by rw [le_div_iff₀ hU]; exact h3'
      have h6 : (w : ℝ) / floatUnit 8 23 < q + 1 := by rw [div_lt_iff₀ hU]; exact h4'
      exact ⟨q, h1, by linarith, h6, by linarith⟩
    · have h1 : (-0.0012 : ℝ) * floatUnit 8 23 ≤ w := by
        have : (-0.0012 : ℝ) ≤ (w : ℝ) / floatUnit 8 23 := by linarith
        rwa [le_div_iff₀ hU] at this
      have h2 : -(floatUnit 8 23 : ℝ) < w := by nlinarith
      have h3 : -(floatUnit 8 23) < w := by exact_mod_cast h2
      refine ⟨0, ?_, ?_, ?_, by norm_num⟩
      · rw [show w = -(-w) by ring, Int.neg_tdiv, Int.tdiv_eq_zero_of_lt (by omega) (by omega)]; rfl
      · push_cast; linarith
      · have : (w : ℝ) / floatUnit 8 23 < 0 := div_neg_of_neg_of_pos (by exact_mod_cast (by omega : w < 0)) hU
        push_cast; linarith
  obtain ⟨q, hq, k1, k2, k3⟩ := key
  have hqN : q ≤ 10435 := by exact_mod_cast k3
  refine ⟨q, hqN, ?_, ?_⟩
  · show cv.tt _ = _
    have := hcv.tt _ w hw (by rw [hq]; omega)
    rw [hq] at this
    exact this
  · have hj : 2 * ((q + 1) / 2) = q ∨ 2 * ((q + 1) / 2) = q + 1 := by omega
    rw [abs_le]
    rcases hj with hj | hj <;> rw [hj] <;> push_cast <;> constructor <;> linarith

/-! ### double: the addition of 1.5 * 2^52 -/

/-- Floats of magnitude at least `2^(M+t)` are multiples of `2^t`. -/
theorem big_multiple {E M k : Nat} {s : BitVec k} {v : Int} (hs : floatValue E M s = .fin v) {t : Nat} (hv : 2 ^ (M + t) ≤ v.natAbs) : (2 : Int) ^ t ∣ v := by
  have hval : floatValue E M s = .fin (if neg E M s then -(smag M (mag E M s) : Int) else (smag M (mag E M s) : Int)) := by
    refine value_of_mag s ?_
    rw [floatValue_eq] at hs
    by_contra hc
    rcases Nat.lt_or_eq_of_le (Nat.le_of_not_lt hc) with h1 | h1
    · rw [if_pos h1] at hs; cases hs
    · rw [if_neg (by omega), if_pos h1.symm] at hs
      split at hs <;> cases hs
  have hv' := Value.fin.inj (hs.symm.trans hval)
  have hn : v.natAbs = smag M (mag E M s) := by rw [hv']; split <;> omega
  have hd : 2 ^ t ∣ smag M (mag E M s) := by
    rw [hn] at hv
    unfold smag at hv ⊢
    generalize hm : mag E M s = m at *
    have hP := Nat.two_pow_pos M
    have hmod := Nat.mod_lt m hP
    split at hv
    · exfalso
      have : 2 ^ M ≤ 2 ^ (M + t) := Nat.pow_le_pow_right (by decide) (by omega)
      omega
    · rename_i hne
      rw [if_neg hne]
      have h1 : 2 ^ (M + t) < 2 ^ (M + 1) * 2 ^ (m / 2 ^ M - 1) := by
        refine Nat.lt_of_le_of_lt hv ?_
        exact Nat.mul_lt_mul_of_pos_right (by rw [Nat.pow_succ]; omega) (Nat.two_pow_pos _)
      rw [← Nat.pow_add] at h1
      have h2 := (Nat.pow_lt_pow_iff_right (by decide : 1 < 2)).mp h1
      exact Nat.dvd_mul_left_of_dvd (Nat.pow_dvd_pow 2 (by omega)) _
  have : ((2 ^ t : Nat) : Int) ∣ v := by
    rw [← Int.dvd_natAbs, hn]
    exact_mod_cast hd
  exact_mod_cast this

/-- The patterns next to 1.5 * 2^52. -/
theorem magic_add (n : Nat) (hn : n < 2 ^ 50) : floatValue 11 52 (magic + BitVec.ofNat 64 n) = .fin (2 ^ 1074 * (3 * 2 ^ 51 + (n : Int))) := by
  have ht : (magic + BitVec.ofNat 64 n).toNat = 0x4338000000000000 + n := by
    rw [BitVec.toNat_add, BitVec.toNat_ofNat]
    show (0x4338000000000000 + n % 2 ^ 64) % 2 ^ 64 = _
    omega
  unfold floatValue
  rw [ht]
  have e1 : (0x4338000000000000 + n) % 2 ^ 52 = 2 ^ 51 + n := by omega
  have e2 : (0x4338000000000000 + n) / 2 ^ 52 % 2 ^ 11 = 1075 := by omega
  have e3 : (0x4338000000000000 + n) / 2 ^ (11 + 52) % 2 = 0 := by omega
  simp only [e1, e2, e3]
  rw [if_neg (by decide), if_neg (by decide), if_neg (by decide)]
  refine congrArg Value.fin ?_
  rw [show (1075 - 1 : Nat) = 1074 from rfl, Nat.cast_mul, Nat.cast_pow, show ((2 : Nat) : Int) = 2 from rfl]
  generalize (2 : Int) ^ 1074 = P
  push_cast
  ring

theorem convert_pd {F : FloatUnit} (hF : IeeeArith F 11 52 64) {x : BitVec 64} {n : Nat} (hx : floatValue 11 52 x = .fin n)
    (hn : (n : ℝ) / floatUnit 11 52 ≤ 10 ^ 9) :
    ∃ q : Nat, q ≤ 1273290000 ∧ (pd F).toInt (F.mul 64 x (pd F).fopi) = BitVec.ofNat 64 q ∧
      |(n : ℝ) / floatUnit 11 52 * (4 / Real.pi) - q| ≤ 0.50001 := by
  have hU := unitR_pos 11 52
  have hu := unit_pos 11 52
  obtain ⟨f1, f2⟩ := fourOverPi_bounds
  have ha0 : 0 ≤ (n : ℝ) / floatUnit 11 52 := div_nonneg (Nat.cast_nonneg _) hU.le
  have hxc : Close 11 52 x ((n : ℝ) / floatUnit 11 52) 0 := ⟨n, hx, by simp⟩
  obtain ⟨w, hw, hwe⟩ := Close.mul Fmt.f64 hF hxc (fopi_pd F) (A := 10 ^ 9) (B := 1.2733) (by rw [abs_of_nonneg ha0]; linarith)
    (by rw [abs_of_nonneg (by positivity)]; norm_num at *; linarith) (by norm_num)
  have ht := tiny Fmt.f64
  have hwe' : |(w : ℝ) / floatUnit 11 52 - (n : ℝ) / floatUnit 11 52 * (4 / Real.pi)| ≤ 0.00001 := by
    refine le_trans hwe ?_
    norm_num at *; linarith
  clear hwe
  generalize ha : (n : ℝ) / floatUnit 11 52 = a at *
  have hprod : a * (4 / Real.pi) ≤ 10 ^ 9 * 1.27324 := mul_le_mul hn f2 (by positivity) (by norm_num)
  have hprod0 : 0 ≤ a * (4 / Real.pi) := by positivity
  obtain ⟨g1, g2⟩ := abs_le.mp hwe'
  clear hwe'
  -- the nearest integer to w / U
  obtain ⟨z, hz1, hz2⟩ : ∃ z : Int, 2 * (w - z * floatUnit 11 52) ≤ floatUnit 11 52 ∧ -(floatUnit 11 52) ≤ 2 * (w - z * floatUnit 11 52) := by
    have h1 := Int.mul_ediv_add_emod w (floatUnit 11 52)
    have h2 := Int.emod_nonneg w (by omega : floatUnit 11 52 ≠ 0)
    have h3 := Int.emod_lt_of_pos w hu
    by_cases hc : 2 * (w % floatUnit 11 52) ≤ floatUnit 11 52
    · refine ⟨w / floatUnit 11 52, ?_, ?_⟩
      · rw [Int.mul_comm] at h1; omega
      · rw [Int.mul_comm] at h1; omega
    · refine ⟨w / floatUnit 11 52 + 1, ?_, ?_⟩
      · rw [Int.mul_comm] at h1; rw [Int.add_mul]; omega
      · rw [Int.mul_comm] at h1; rw [Int.add_mul]; omega
  have hzR : |(w : ℝ) / floatUnit 11 52 - z| ≤ 1 / 2 := by
    have e : (w : ℝ) / floatUnit 11 52 - z = ((w - z * floatUnit 11 52 : Int) : ℝ) / floatUnit 11 52 := by push_cast; field_simp
    rw [e, abs_div, abs_of_pos hU, div_le_iff₀ hU]
    have h1 : (2 : ℝ) * ((w - z * floatUnit 11 52 : Int) : ℝ) ≤ floatUnit 11 52 := by exact_mod_cast hz1
    have h2 : -(floatUnit 11 52 : ℝ) ≤ 2 * ((w - z * floatUnit 11 52 : Int) : ℝ) := by exact_mod_cast hz2
    rw [abs_le]; constructor <;> linarith
  obtain ⟨g3, g4⟩ := abs_le.mp hzR
  clear hzR
  have z0 : 0 ≤ z := by
    have : (-1 : ℝ) < z := by linarith
    have : (-1 : Int) < z := by exact_mod_cast this
    omega
  have z1 : z ≤ 1273280000 := by
    have : (z : ℝ) ≤ 1273280000 := by linarith
    exact_mod_cast this
  -- the rounded sum
  obtain ⟨s, hs⟩ : ∃ s : BitVec 64, floatValue 11 52 s = .fin ((3 * 2 ^ 51 + z) * 2 ^ 1074) := dyadic_is_float Fmt.f64 (3 * 2 ^ 51 + z) 1074 (by omega) (by decide)
  obtain ⟨sb, hsb⟩ := big_float Fmt.f64
  have hbound : (w + 2 ^ 1074 * (3 * 2 ^ 51)).natAbs ≤ (2 ^ 100 * floatUnit 11 52).natAbs := by
    rw [unit_pd] at *
    generalize (2 : Int) ^ 1074 = P at *
    have : z * P ≤ 1273280000 * P := Int.mul_le_mul_of_nonneg_right z1 (by omega)
    have : 0 ≤ z * P := Int.mul_nonneg z0 (by omega)
    omega
  obtain ⟨r, hr, hnear⟩ := hF.add _ _ sb w _ _ hw magic_value hsb hbound
  have hle := hnear s _ hs
  have hrdist : 2 * ((w + 2 ^ 1074 * (3 * 2 ^ 51)) - r).natAbs ≤ 2 ^ 1074 := by
    rw [Int.mul_one, Int.mul_one] at hle
    rw [unit_pd] at *
    have e : w + 2 ^ 1074 * (3 * 2 ^ 51) - (3 * 2 ^ 51 + z) * 2 ^ 1074 = w - z * 2 ^ 1074 := by ring
    rw [e] at hle
    have hP : ((2 ^ 1074 : Nat) : Int) = 2 ^ 1074 := by push_cast; rfl
    generalize (2 : Int) ^ 1074 = P at *
    generalize (2 : Nat) ^ 1074 = P' at *
    omega
  have hP : ((2 ^ 1074 : Nat) : Int) = 2 ^ 1074 := by push_cast; rfl
  have hdvd : (2 : Int) ^ 1074 ∣ r := by
    refine big_multiple hr ?_
    have e52 : 2 ^ (52 + 1074) = 2 ^ 52 * 2 ^ 1074 := by rw [Nat.pow_add]
    rw [e52]
    rw [unit_pd] at *
    generalize (2 : Int) ^ 1074 = P at *
    generalize (2 : Nat) ^ 1074 = P' at *
    have : 0 ≤ z * P := Int.mul_nonneg z0 (by omega)
    omega
  obtain ⟨y, hy⟩ := hdvd
  have hrR : |(w : ℝ) / floatUnit 11 52 - ((y - 3 * 2 ^ 51 : Int) : ℝ)| ≤ 1 / 2 := by
    have e : (w : ℝ) / floatUnit 11 52 - ((y - 3 * 2 ^ 51 : Int) : ℝ) = ((w + 2 ^ 1074 * (3 * 2 ^ 51) - r : Int) : ℝ) / floatUnit 11 52 := by
      have hUy : (r : ℝ) = floatUnit 11 52 * y := by rw [hy, unit_pd]; push_cast; rfl
      have hUm : ((2 ^ 1074 * (3 * 2 ^ 51) : Int) : ℝ) = floatUnit 11 52 * (3 * 2 ^ 51) := by rw [unit_pd, Int.cast_mul]; congr 1; norm_num
      rw [Int.cast_sub (w + _), Int.cast_add, hUm, hUy]
      generalize (floatUnit 11 52 : ℝ) = P at hU
      push_cast
      field_simp
      ring
    rw [e, abs_div, abs_of_pos hU, div_le_iff₀ hU]
    have h1 : (2 : Int) * |w + 2 ^ 1074 * (3 * 2 ^ 51) - r| ≤ floatUnit 11 52 := by
      rw [unit_pd, ← hP, ← Int.natCast_natAbs]; exact_mod_cast hrdist
    have h2 : (2 : ℝ) * |((w + 2 ^ 1074 * (3 * 2 ^ 51) - r : Int) : ℝ)| ≤ floatUnit 11 52 := by exact_mod_cast h1
    exact (show ∀ A U : ℝ, 2 * A ≤ U → A ≤ 1 / 2 * U from fun _ _ h => by linarith) _ _ h2
  obtain ⟨g5, g6⟩ := abs_le.mp hrR
  clear hrR
  obtain ⟨d, hd⟩ : ∃ d, d = y - 3 * 2 ^ 51 := ⟨_, rfl⟩
  rw [← hd] at g5 g6
  have y0 : 0 ≤ d := by
    have : (-1 : ℝ) < d := by linarith
    have : (-1 : Int) < d := by exact_mod_cast this
    omega
  have y1 : d ≤ 1273290000 := by
    have : (d : ℝ) ≤ 1273290000 := by linarith
    exact_mod_cast this
  obtain ⟨q, hq⟩ := Int.eq_ofNat_of_zero_le y0
  rw [hq] at g5 g6 y1
  refine ⟨q, by omega, ?_, ?_⟩
  · show F.add 64 _ magic - magic = _
    have hv := magic_add q (by omega)
    have hr' : floatValue 11 52 (F.add 64 (F.mul 64 x (pd F).fopi) magic) = .fin (2 ^ 1074 * (3 * 2 ^ 51 + (q : Int))) := by
      rw [hr, hy, show y = 3 * 2 ^ 51 + (q : Int) by omega]
    rw [finite_unique Fmt.f64 hr' hv (by
      have : (0 : Int) < 2 ^ 1074 := by positivity
      have : (0 : Int) < 2 ^ 1074 * (3 * 2 ^ 51 + (q : Int)) := Int.mul_pos this (by omega)
      omega)]
    rw [BitVec.add_comm]
    exact BitVec.add_sub_cancel ..
  · rw [abs_le]
    rw [Int.cast_natCast] at g5 g6
    constructor <;> linarith

theorem ofInt_pd {F : FloatUnit} (hF : IeeeArith F 11 52 64) (n : Nat) (hn : n < 2 ^ 50) : floatValue 11 52 ((pd F).ofInt (BitVec.ofNat 64 n)) = .fin (floatUnit 11 52 * n) := by
  show floatValue 11 52 (F.sub 64 (BitVec.ofNat 64 n + magic) magic) = _
  rw [BitVec.add_comm]
  obtain ⟨s, hs⟩ := dyadic_is_float Fmt.f64 (n : Int) 1074 (by omega) (by decide)
  refine sub_exact hF (magic_add n hn) magic_value (s := s) ?_ ?_
  · rw [hs, unit_pd, mul_comm]
  · rw [unit_pd]
    generalize (2 : Int) ^ 1074 = P
    ring

theorem ofInt_ps {cv : Cvt} (hcv : IeeeCvt cv) (n : Nat) (hn : n ≤ 2 ^ 23) : floatValue 8 23 ((ps cv.tt cv.epi).ofInt (BitVec.ofNat 32 n)) = .fin (floatUnit 8 23 * n) := by
  have ht : (BitVec.ofNat 32 n).toInt = n := by
    rw [BitVec.toInt_eq_toNat_cond, BitVec.toNat_ofNat]; omega
  have := hcv.epi (BitVec.ofNat 32 n) (by rw [ht]; omega)
  rw [ht] at this
  exact this

end Pnumpy.Props
