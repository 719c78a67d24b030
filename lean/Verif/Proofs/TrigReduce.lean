import Verif.Proofs.TrigQuadrant
/-
Range reduction of sin256/cos256: x - j*pi/4 with pi/4 in three parts, the first two exact.
-/
namespace Pnumpy.Props
open Spec Ieee Trig

/-- The three parts of -pi/4. -/
structure ReduceC (E M k : Nat) (C : MathC k) (e3 : ℝ) : Prop where
  dp1 : ∃ d, floatValue E M C.dp1 = .fin d ∧ 256 * d = -201 * floatUnit E M
  dp2 : Close E M C.dp2 (-(2029/8388608)) 0
  dp3 : Close E M C.dp3 (-(Real.pi / 4 - 201/256 - 2029/8388608)) e3

theorem prod1 {F : FloatUnit} {E M k : Nat} (h : Fmt E M k) (hF : IeeeArith F E M k) {y d1 : BitVec k} {j : Nat} {d : Int}
    (hy : floatValue E M y = .fin (floatUnit E M * j)) (hd : floatValue E M d1 = .fin d) (hd' : 256 * d = -201 * floatUnit E M) (hj : 201 * j ≤ 2 ^ (M + 1)) :
    Close E M (F.mul k y d1) (-(j * (201/256))) 0 := by
  have hu := unit_pos E M
  have hUR := unitR_pos E M
  have hL : ∃ L, floatUnit E M = 256 * 2 ^ L ∧ L + 4 ≤ 2 ^ E := by
    unfold floatUnit
    cases h
    · exact ⟨141, by decide, by decide⟩
    · exact ⟨1066, by decide +kernel, by decide⟩
  obtain ⟨L, hL1, hL2⟩ := hL
  obtain ⟨s, hs⟩ := dyadic_is_float h (-201 * (j : Int)) L (by omega) hL2
  have hdv : d = -201 * 2 ^ L := by
    rw [hL1] at hd'
    generalize (2 : Int) ^ L = P at *
    omega
  refine ⟨_, mul_exact hF hy hd hs ?_, ?_⟩
  · rw [hdv]; ring
  · have : (floatUnit E M : ℝ) = 256 * 2 ^ L := by rw [hL1]; push_cast; ring
    rw [this]
    push_cast
    have hp : (0 : ℝ) < 2 ^ L := by positivity
    rw [show (-201 * (j : ℝ) * 2 ^ L) / (256 * 2 ^ L) - -((j : ℝ) * (201/256)) = 0 by field_simp; ring]
    simp

theorem int_close {E M k : Nat} {y : BitVec k} {j : Nat} (hy : floatValue E M y = .fin (floatUnit E M * j)) : Close E M y j 0 := by
  refine ⟨_, hy, ?_⟩
  have hUR := unitR_pos E M
  push_cast
  rw [mul_div_cancel_left₀ _ (ne_of_gt hUR)]; simp

theorem pi_parts : 0 ≤ Real.pi / 4 - 201/256 ∧ Real.pi / 4 - 201/256 ≤ 2.42E-4 ∧ 0 ≤ Real.pi / 4 - 201/256 - 2029/8388608 ∧
    Real.pi / 4 - 201/256 - 2029/8388608 ≤ 3.78E-8 := by
  have h1 := Real.pi_gt_d20
  have h2 := Real.pi_lt_d20
  refine ⟨?_, ?_, ?_, ?_⟩ <;> norm_num at * <;> linarith

theorem reduce_small {F : FloatUnit} {E M k : Nat} (h : Fmt E M k) (hF : IeeeArith F E M k) (hp : 24 ≤ M + 1) {C : MathC k} (hC : ReduceC E M k C (1/500000000000000))
    {x y : BitVec k} {a : ℝ} {j : Nat} (hx : Close E M x a 0) (hy : floatValue E M y = .fin (floatUnit E M * j)) (hj : (j : ℝ) ≤ (10440)) (hr : |a - j * (Real.pi / 4)| ≤ (79/100)) :
    Close E M (F.add k (F.add k (F.add k x (F.mul k y C.dp1)) (F.mul k y C.dp2)) (F.mul k y C.dp3)) (a - j * (Real.pi / 4)) (89/200000000) := by
  obtain ⟨d, hd, hd'⟩ := hC.dp1
  have hjN : j ≤ 10440 := by exact_mod_cast hj
  have hj0 : (0 : ℝ) ≤ j := Nat.cast_nonneg j
  have hjm : 201 * j ≤ 2 ^ (M + 1) := by
    have : 2 ^ 24 ≤ 2 ^ (M + 1) := Nat.pow_le_pow_right (by decide) hp
    have : (201 * 10440 : Nat) ≤ 2 ^ 24 := by norm_num
    omega
  obtain ⟨p1, p2, p3, p4⟩ := pi_parts
  have q1 := prod1 h hF hy hd hd' hjm
  have hpow : ∀ {B : ℝ}, 0 ≤ B → B / 2 ^ (M + 1) ≤ B / 2 ^ 24 := fun hB => div_le_div_of_nonneg_left hB (by positivity) (pow_le_pow_right₀ (by norm_num) hp)
  have ht := tiny h
  -- x + j*dp1
  have s1 : |a + -((j : ℝ) * (201/256))| ≤ (10364/3125) := by
    rw [show a + -((j : ℝ) * (201/256)) = (a - j * (Real.pi / 4)) + j * (Real.pi / 4 - 201/256) by ring]
    refine le_trans (abs_add_le _ _) ?_
    rw [abs_of_nonneg (mul_nonneg hj0 p1)]
    have := mul_le_mul hj p2 p1 (by norm_num)
    linarith
  have a1 : Close E M (F.add k x (F.mul k y C.dp1)) (a + -((j : ℝ) * (201/256))) (1977/10000000000) := by
    refine Close.weaken (Close.add h hF hx q1 (B := (10364/3125)) (by linarith) (by norm_num)) ?_
    have := hpow (B := (10364/3125)) (by norm_num)
    norm_num at *; linarith
  -- j*dp2
  have q2 : Close E M (F.mul k y C.dp2) ((j : ℝ) * -(2029/8388608)) (753/5000000000) := by
    refine Close.weaken (Close.mul h hF (int_close hy) hC.dp2 (A := (10440)) (B := (2029/8388608)) (by rw [abs_of_nonneg hj0]; linarith) (by norm_num [abs_le]) (by norm_num)) ?_
    have := hpow (B := (10440) * (2029/8388608)) (by norm_num)
    norm_num at *; linarith
  have s2 : |a + -((j : ℝ) * (201/256)) + (j : ℝ) * -(2029/8388608)| ≤ (98799329/125000000) := by
    rw [show a + -((j : ℝ) * (201/256)) + (j : ℝ) * -(2029/8388608) = (a - j * (Real.pi / 4)) + j * (Real.pi / 4 - 201/256 - 2029/8388608) by ring]
    refine le_trans (abs_add_le _ _) ?_
    rw [abs_of_nonneg (mul_nonneg hj0 p3)]
    have := mul_le_mul hj p4 p3 (by norm_num)
    linarith
  have a2 : Close E M (F.add k (F.add k x (F.mul k y C.dp1)) (F.mul k y C.dp2)) (a + -((j : ℝ) * (201/256)) + (j : ℝ) * -(2029/8388608)) (791/2000000000) := by
    refine Close.weaken (Close.add h hF a1 q2 (B := (7903949803/10000000000)) (by linarith) (by norm_num)) ?_
    have := hpow (B := (7903949803/10000000000)) (by norm_num)
    norm_num at *; linarith
  -- j*dp3
  have q3 : Close E M (F.mul k y C.dp3) ((j : ℝ) * -(Real.pi / 4 - 201/256 - 2029/8388608)) (4441/100000000000000) := by
    refine Close.weaken (Close.mul h hF (int_close hy) hC.dp3 (A := (10440)) (B := (18900001/500000000000000)) (by rw [abs_of_nonneg hj0]; linarith)
      (by rw [abs_neg, abs_of_nonneg p3]; linarith) (by norm_num)) ?_
    have := hpow (B := (10440) * (18900001/500000000000000)) (by norm_num)
    norm_num at *; linarith
  have e : a + -((j : ℝ) * (201/256)) + (j : ℝ) * -(2029/8388608) + (j : ℝ) * -(Real.pi / 4 - 201/256 - 2029/8388608) = a - j * (Real.pi / 4) := by ring
  have a3 := Close.add h hF a2 q3 (B := (79000039554441/100000000000000)) (by rw [e]; linarith) (by norm_num)
  rw [e] at a3
  refine Close.weaken a3 ?_
  have := hpow (B := (79000039554441/100000000000000)) (by norm_num)
  norm_num at *; linarith

theorem reduce_large {F : FloatUnit} {E M k : Nat} (h : Fmt E M k) (hF : IeeeArith F E M k) (hp : 53 ≤ M + 1) {C : MathC k} (hC : ReduceC E M k C (1/100000000000000000000))
    {x y : BitVec k} {a : ℝ} {j : Nat} (hx : Close E M x a 0) (hy : floatValue E M y = .fin (floatUnit E M * j)) (hj : (j : ℝ) ≤ (1273300000)) (hr : |a - j * (Real.pi / 4)| ≤ (1179/1000)) :
    Close E M (F.add k (F.add k (F.add k x (F.mul k y C.dp1)) (F.mul k y C.dp2)) (F.mul k y C.dp3)) (a - j * (Real.pi / 4)) (9/100000000000) := by
  obtain ⟨d, hd, hd'⟩ := hC.dp1
  have hjN : j ≤ 1273300000 := by exact_mod_cast hj
  have hj0 : (0 : ℝ) ≤ j := Nat.cast_nonneg j
  have hjm : 201 * j ≤ 2 ^ (M + 1) := by
    have : 2 ^ 53 ≤ 2 ^ (M + 1) := Nat.pow_le_pow_right (by decide) hp
    have : (201 * 1273300000 : Nat) ≤ 2 ^ 53 := by norm_num
    omega
  obtain ⟨p1, p2, p3, p4⟩ := pi_parts
  have q1 := prod1 h hF hy hd hd' hjm
  have hpow : ∀ {B : ℝ}, 0 ≤ B → B / 2 ^ (M + 1) ≤ B / 2 ^ 53 := fun hB => div_le_div_of_nonneg_left hB (by positivity) (pow_le_pow_right₀ (by norm_num) hp)
  have ht := tiny h
  -- x + j*dp1
  have s1 : |a + -((j : ℝ) * (201/256))| ≤ (308139779/1000) := by
    rw [show a + -((j : ℝ) * (201/256)) = (a - j * (Real.pi / 4)) + j * (Real.pi / 4 - 201/256) by ring]
    refine le_trans (abs_add_le _ _) ?_
    rw [abs_of_nonneg (mul_nonneg hj0 p1)]
    have := mul_le_mul hj p2 p1 (by norm_num)
    linarith
  have a1 : Close E M (F.add k x (F.mul k y C.dp1)) (a + -((j : ℝ) * (201/256))) (1711/50000000000000) := by
    refine Close.weaken (Close.add h hF hx q1 (B := (308139779/1000)) (by linarith) (by norm_num)) ?_
    have := hpow (B := (308139779/1000)) (by norm_num)
    norm_num at *; linarith
  -- j*dp2
  have q2 : Close E M (F.mul k y C.dp2) ((j : ℝ) * -(2029/8388608)) (171/5000000000000) := by
    refine Close.weaken (Close.mul h hF (int_close hy) hC.dp2 (A := (1273300000)) (B := (2029/8388608)) (by rw [abs_of_nonneg hj0]; linarith) (by norm_num [abs_le]) (by norm_num)) ?_
    have := hpow (B := (1273300000) * (2029/8388608)) (by norm_num)
    norm_num at *; linarith
  have s2 : |a + -((j : ℝ) * (201/256)) + (j : ℝ) * -(2029/8388608)| ≤ (2465487/50000) := by
    rw [show a + -((j : ℝ) * (201/256)) + (j : ℝ) * -(2029/8388608) = (a - j * (Real.pi / 4)) + j * (Real.pi / 4 - 201/256 - 2029/8388608) by ring]
    refine le_trans (abs_add_le _ _) ?_
    rw [abs_of_nonneg (mul_nonneg hj0 p3)]
    have := mul_le_mul hj p4 p3 (by norm_num)
    linarith
  have a2 : Close E M (F.add k (F.add k x (F.mul k y C.dp1)) (F.mul k y C.dp2)) (a + -((j : ℝ) * (201/256)) + (j : ℝ) * -(2029/8388608)) (6843/100000000000000) := by
    refine Close.weaken (Close.add h hF a1 q2 (B := (2465487000003421/50000000000000)) (by linarith) (by norm_num)) ?_
    have := hpow (B := (2465487000003421/50000000000000)) (by norm_num)
    norm_num at *; linarith
  -- j*dp3
  have q3 : Close E M (F.mul k y C.dp3) ((j : ℝ) * -(Real.pi / 4 - 201/256 - 2029/8388608)) (637/50000000000000) := by
    refine Close.weaken (Close.mul h hF (int_close hy) hC.dp3 (A := (1273300000)) (B := (3780000000001/100000000000000000000)) (by rw [abs_of_nonneg hj0]; linarith)
      (by rw [abs_neg, abs_of_nonneg p3]; linarith) (by norm_num)) ?_
    have := hpow (B := (1273300000) * (3780000000001/100000000000000000000)) (by norm_num)
    norm_num at *; linarith
  have e : a + -((j : ℝ) * (201/256)) + (j : ℝ) * -(2029/8388608) + (j : ℝ) * -(Real.pi / 4 - 201/256 - 2029/8388608) = a - j * (Real.pi / 4) := by ring
  have a3 := Close.add h hF a2 q3 (B := (117900000008117/100000000000000)) (by rw [e]; linarith) (by norm_num)
  rw [e] at a3
  refine Close.weaken a3 ?_
  have := hpow (B := (117900000008117/100000000000000)) (by norm_num)
  norm_num at *; linarith

end Pnumpy.Props
