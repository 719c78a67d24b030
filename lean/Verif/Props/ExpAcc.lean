import Verif.Proofs.ExpChain
import Verif.Props.TrigAcc
/-
Property theorem C91: accuracy of the vector version of the float32 exp.
-/
namespace Pnumpy.Props
open Pnumpy.Spec Pnumpy.Elem Pnumpy.Dispatch Pnumpy.Ieee Pnumpy.FloatOps Pnumpy.Trig

theorem log2_bounds : 0.6931471804 ≤ Real.log 2 ∧ Real.log 2 ≤ 0.6931471807 := by
  obtain ⟨h1, h2⟩ := abs_le.mp Real.log_two_near_10
  norm_num at h1 h2 ⊢
  constructor <;> linarith

theorem log2ef_ps : Closeb 8 23 0x3fb8aa3b#32 (1 / Real.log 2) (1/40000000) (3/2) := by
  obtain ⟨h1, h2⟩ := log2_bounds
  have hp : 0 < Real.log 2 := by linarith
  refine ⟨close_ps (x := 0x3fb8aa3b#32) (12102203) 126 23 (by decide +kernel) (by decide +kernel) rfl ?_, ?_⟩
  · rw [abs_le, neg_le_sub_iff_le_add, sub_le_iff_le_add, div_le_iff₀ hp, ← sub_le_iff_le_add', le_div_iff₀ hp]
    norm_num at *
    constructor <;> linarith
  · rw [abs_of_pos (by positivity), div_le_iff₀ hp]; linarith

theorem half32 : Closeb 8 23 0x3f000000#32 (1/2) 0 (1/2) := ⟨close_ps (x := 0x3f000000#32) (1) 148 1 (by decide +kernel) (by decide +kernel) rfl (by norm_num [abs_le]), by norm_num [abs_le]⟩

/-- The low part of log 2. -/
theorem c2_ps : Closeb 8 23 0xb95e8083#32 (Real.log 2 - 355/512) (12/100000000000) (213/1000000) := by
  obtain ⟨h1, h2⟩ := abs_le.mp Real.log_two_near_10
  refine ⟨close_ps (x := 0xb95e8083#32) (-14581891) 113 36 (by decide +kernel) (by decide +kernel) rfl ?_, ?_⟩
  · rw [abs_le]; norm_num at *; constructor <;> linarith
  · rw [abs_le]; norm_num at *; constructor <;> linarith

/-- The pattern of a power of two made by adding the bias and shifting. -/
theorem pow2n_ps : ∀ m : Fin 254, floatValue 8 23 ((BitVec.ofInt 32 ((m.val : Int) - 126) + 0x7f#32) <<< 23) = .fin (2 ^ (m.val + 23)) := by
  have h : ∀ m : Fin 254, decide (mag 8 23 ((BitVec.ofInt 32 ((m.val : Int) - 126) + 0x7f#32) <<< 23) < infMag 8 23) = true ∧
      (if neg 8 23 ((BitVec.ofInt 32 ((m.val : Int) - 126) + 0x7f#32) <<< 23) then -(smag 23 (mag 8 23 ((BitVec.ofInt 32 ((m.val : Int) - 126) + 0x7f#32) <<< 23)) : Int)
        else (smag 23 (mag 8 23 ((BitVec.ofInt 32 ((m.val : Int) - 126) + 0x7f#32) <<< 23)) : Int)) = 2 ^ (m.val + 23) := by decide +kernel
  exact fun m => val_ps (h m).1 (h m).2

/-- The integer part: the kernel's `fx` is an integer `n` with `x - n log 2` small, its conversion is exact. -/
theorem exp_floor {F : FloatUnit} (hF : IeeeArith F 8 23 32) {cv : Cvt} (hcv : IeeeCvt cv) {x : BitVec 32} {a : ℝ} (hx : Close 8 23 x a 0) (hal : -87.33 ≤ a) (hah : a ≤ 88.37) :
    ∃ n : Int, -126 ≤ n ∧ n ≤ 127 ∧ |a - n * Real.log 2| ≤ 1733/5000 ∧ ∀ fx tmp, fx = F.add 32 (F.mul 32 x 0x3fb8aa3b#32) 0x3f000000#32 → tmp = F.floor 32 fx →
      floatValue 8 23 (F.sub 32 tmp (maskOf (flt 8 23 fx tmp) &&& 0x3f800000#32)) = .fin (floatUnit 8 23 * n) ∧
      cv.tt (F.sub 32 tmp (maskOf (flt 8 23 fx tmp) &&& 0x3f800000#32)) = BitVec.ofInt 32 n := by
  have hU := unitR_pos 8 23
  have hu := unit_pos 8 23
  obtain ⟨l1, l2⟩ := log2_bounds
  have hp : 0 < Real.log 2 := by linarith
  have hxb : Closeb 8 23 x a 0 88.37 := ⟨hx, abs_le.mpr ⟨by linarith, hah⟩⟩
  have t1 := Closeb.mul (W := 133) (τ := 11/1000000) Fmt.f32 hF (p := 24) (by decide) hxb log2ef_ps (by norm_num) (by norm_num) (by norm_num)
  have t2 := Closeb.add (W := 134) (τ := 2/100000) Fmt.f32 hF (p := 24) (by decide) t1 half32 (by norm_num) (by norm_num) (by norm_num)
  obtain ⟨⟨w, hw, hwe⟩, -⟩ := t2
  have hfl := hF.floor _ w hw
  refine ⟨w / floatUnit 8 23, ?_⟩
  have h3 : w / floatUnit 8 23 * floatUnit 8 23 ≤ w := Int.ediv_mul_le _ (by omega)
  have h4 : w < (w / floatUnit 8 23 + 1) * floatUnit 8 23 := Int.lt_ediv_add_one_mul_self _ hu
  generalize hn : w / floatUnit 8 23 = n at *
  have h3' : (n : ℝ) * floatUnit 8 23 ≤ w := by exact_mod_cast h3
  have h4' : (w : ℝ) < (n + 1) * floatUnit 8 23 := by exact_mod_cast h4
  have h5 : (n : ℝ) ≤ (w : ℝ) / floatUnit 8 23 := by rw [le_div_iff₀ hU]; exact h3'
  have h6 : (w : ℝ) / floatUnit 8 23 < n + 1 := by rw [div_lt_iff₀ hU]; exact h4'
  obtain ⟨g1, g2⟩ := abs_le.mp hwe
  have hq : |a * (1 / Real.log 2) - n| ≤ 0.50002 := by rw [abs_le]; constructor <;> linarith
  have hr : |a - n * Real.log 2| ≤ 1733/5000 := by
    have e : a - n * Real.log 2 = (a * (1 / Real.log 2) - n) * Real.log 2 := by field_simp
    rw [e, abs_mul, abs_of_pos hp]
    exact le_trans (mul_le_mul hq l2 hp.le (by norm_num)) (by norm_num)
  obtain ⟨r1, r2⟩ := abs_le.mp hr
  have n1 : -126 ≤ n := by
    have : (-127 : ℝ) < n := by
      by_contra hc
      have : (n : ℝ) * Real.log 2 ≤ -127 * Real.log 2 := mul_le_mul_of_nonneg_right (by linarith) hp.le
      linarith
    have : (-127 : Int) < n := by exact_mod_cast this
    omega
  have n2 : n ≤ 127 := by
    have : (n : ℝ) < 128 := by
      by_contra hc
      have : 128 * Real.log 2 ≤ (n : ℝ) * Real.log 2 := mul_le_mul_of_nonneg_right (by linarith) hp.le
      linarith
    have : n < (128 : Int) := by exact_mod_cast this
    omega
  refine ⟨n1, n2, hr, ?_⟩
  rintro fx tmp rfl rfl
  have hm : maskOf (flt 8 23 (F.add 32 (F.mul 32 x 0x3fb8aa3b#32) 0x3f000000#32) (F.floor 32 (F.add 32 (F.mul 32 x 0x3fb8aa3b#32) 0x3f000000#32))) &&& 0x3f800000#32 = (0 : BitVec 32) := by
    have : flt 8 23 (F.add 32 (F.mul 32 x 0x3fb8aa3b#32) 0x3f000000#32) (F.floor 32 (F.add 32 (F.mul 32 x 0x3fb8aa3b#32) 0x3f000000#32)) = false := by
      rw [Bool.eq_false_iff, Ne, flt_iff 8 23 (by decide), hw, hfl]
      show ¬ (w < floatUnit 8 23 * n)
      rw [Int.mul_comm]; omega
    rw [this]; rfl
  rw [hm]
  have hs := sub_zeroR hF Fmt.f32 hfl (value_zeroPattern Fmt.f32)
  refine ⟨hs, ?_⟩
  have htd : (floatUnit 8 23 * n).tdiv (floatUnit 8 23) = n := Int.mul_tdiv_cancel_left _ (by omega)
  have := hcv.tt _ _ hs (by rw [htd]; omega)
  rw [htd] at this
  exact this

/-- The argument reduction of the exp kernel. -/
theorem exp_reduce {F : FloatUnit} (hF : IeeeArith F 8 23 32) {x fx : BitVec 32} {a : ℝ} {n : Int} (hx : Close 8 23 x a 0) (hf : floatValue 8 23 fx = .fin (floatUnit 8 23 * n))
    (h1 : -126 ≤ n) (h2 : n ≤ 127) (hr : |a - n * Real.log 2| ≤ 1733/5000) :
    Close 8 23 (F.sub 32 (F.sub 32 x (F.mul 32 fx 0x3f318000#32)) (F.mul 32 fx 0xb95e8083#32)) (a - n * Real.log 2) (7/100000000) := by
  have hU := unitR_pos 8 23
  have hn : |(n : ℝ)| ≤ 127 := by
    have h1' : (-126 : ℝ) ≤ n := by exact_mod_cast h1
    rw [abs_le]; exact ⟨by linarith, by exact_mod_cast h2⟩
  have hfb : Closeb 8 23 fx n 0 127 := ⟨⟨_, hf, by push_cast; rw [mul_div_cancel_left₀ _ (ne_of_gt hU)]; simp⟩, hn⟩
  obtain ⟨s, hs⟩ := dyadic_is_float Fmt.f32 (n * 355) 140 (by omega) (by decide)
  have hc1 : floatValue 8 23 0x3f318000#32 = .fin (355 * 2 ^ 140) := val_ps (by decide +kernel) (by decide +kernel)
  have hm1 : floatValue 8 23 (F.mul 32 fx 0x3f318000#32) = .fin (n * 355 * 2 ^ 140) := mul_exact hF hf hc1 hs (by
    generalize (2 : Int) ^ 140 = P; ring)
  have hm1c : Close 8 23 (F.mul 32 fx 0x3f318000#32) (n * (355/512)) 0 := close_dyadic unit_ps hm1 (s := 9) rfl (by push_cast; norm_num; ring)
  have m2 := Closeb.mul (W := 27051/1000000) (τ := 17/1000000000) Fmt.f32 hF (p := 24) (by decide) hfb c2_ps (by norm_num) (by norm_num) (by norm_num)
  have hb : |a - n * (355/512)| ≤ 374/1000 := by
    have e : a - n * (355/512) = (a - n * Real.log 2) + n * (Real.log 2 - 355/512) := by ring
    rw [e]
    exact le_trans (abs_add_le _ _) (le_trans (add_le_add hr m2.2) (by norm_num))
  have ht := tiny Fmt.f32
  have s1 := Close.weaken (Close.sub Fmt.f32 hF hx hm1c (B := 374/1000) (by linarith) (by norm_num)) (show _ ≤ (23/1000000000 : ℝ) by norm_num at ht ⊢; linarith)
  have s2 := Close.sub Fmt.f32 hF s1 m2.1 (B := 347/1000) (by
    have e : a - n * (355/512) - n * (Real.log 2 - 355/512) = a - n * Real.log 2 := by ring
    rw [e]; linarith) (by norm_num)
  have e : a - n * (355/512) - n * (Real.log 2 - 355/512) = a - n * Real.log 2 := by ring
  rw [e] at s2
  exact Close.weaken s2 (by norm_num at ht ⊢; linarith)

/-- Multiplying by `2^n` is exact when the result is a normal float. -/
theorem scale_exact {F : FloatUnit} (hF : IeeeArith F 8 23 32) {y : BitVec 32} {w : Int} (hy : floatValue 8 23 y = .fin w) {n : Int} (h1 : -126 ≤ n) (h2 : n ≤ 127)
    (hw1 : 2 ^ 148 ≤ w) (hw2 : w < 2 ^ 150) (hn : n = -126 → 2 ^ 149 ≤ w) {t ε : ℝ} (ht : |(w : ℝ) / floatUnit 8 23 - t| ≤ ε) :
    Close 8 23 (F.mul 32 y ((BitVec.ofInt 32 n + 0x7f#32) <<< 23)) (t * (2 : ℝ) ^ n) (ε * (2 : ℝ) ^ n) := by
  obtain ⟨m, hm⟩ := Int.eq_ofNat_of_zero_le (show 0 ≤ n + 126 by omega)
  have hpv := pow2n_ps ⟨m, by omega⟩
  rw [show ((m : Int) - 126) = n by omega] at hpv
  have hpos : (0 : ℝ) < (2 : ℝ) ^ n := by positivity
  have key : ∀ (T : Nat), 125 ≤ T → T ≤ 126 → 126 ≤ T + m → 2 ^ (23 + T) ≤ w → w < 2 ^ (24 + T) →
      ∃ q : Int, w = q * 2 ^ T ∧ floatValue 8 23 (F.mul 32 y ((BitVec.ofInt 32 n + 0x7f#32) <<< 23)) = .fin (q * 2 ^ (T + m - 126)) := by
    intro T _ _ hT hl hu
    have hd := big_multiple hy (t := T) (by
      have : ((2 ^ (23 + T) : Nat) : Int) = 2 ^ (23 + T) := by push_cast; rfl
      rw [← this] at hl; omega)
    obtain ⟨q, hq⟩ := hd
    rw [Int.mul_comm] at hq
    refine ⟨q, hq, ?_⟩
    have hq0 : 0 ≤ q := by
      by_contra hc
      have h0 : q * 2 ^ T < 0 := Int.mul_neg_of_neg_of_pos (by omega) (by positivity)
      have : (0 : Int) < 2 ^ (23 + T) := by positivity
      omega
    have hq1 : q < 2 ^ 24 := by
      rw [hq, pow_add] at hu
      exact lt_of_mul_lt_mul_right hu (by positivity)
    obtain ⟨s, hs⟩ := dyadic_is_float_lt Fmt.f32 q (T + m - 126) (by omega) (by show T + m - 126 + 3 ≤ 256; omega)
    refine mul_exact hF hy hpv hs ?_
    rw [hq, unit_ps, mul_assoc, mul_assoc, ← pow_add, ← pow_add]
    have he : T + (m + 23) = T + m - 126 + 149 := by omega
    show q * 2 ^ (T + (m + 23)) = _
    rw [he]
  have fin : ∀ (T : Nat) (q : Int), 126 ≤ T + m → w = q * 2 ^ T → floatValue 8 23 (F.mul 32 y ((BitVec.ofInt 32 n + 0x7f#32) <<< 23)) = .fin (q * 2 ^ (T + m - 126)) →
      Close 8 23 (F.mul 32 y ((BitVec.ofInt 32 n + 0x7f#32) <<< 23)) (t * (2 : ℝ) ^ n) (ε * (2 : ℝ) ^ n) := by
    intro T q hT hq hv
    refine ⟨_, hv, ?_⟩
    have e : ((q * 2 ^ (T + m - 126) : Int) : ℝ) = (w : ℝ) * (2 : ℝ) ^ n := by
      rw [hq]
      rw [Int.cast_mul, Int.cast_mul, Int.cast_pow, Int.cast_pow, mul_assoc]
      have hz : ((T + m - 126 : Nat) : Int) = (T : Int) + n := by omega
      rw [show ((2 : Int) : ℝ) = 2 from rfl, ← zpow_natCast, ← zpow_natCast, ← zpow_add₀ (by norm_num), hz]
    rw [e, show (w : ℝ) * 2 ^ n / (floatUnit 8 23 : ℝ) - t * 2 ^ n = ((w : ℝ) / floatUnit 8 23 - t) * 2 ^ n by ring, abs_mul, abs_of_pos hpos]
    exact mul_le_mul_of_nonneg_right ht hpos.le
  by_cases hc : 2 ^ 149 ≤ w
  · obtain ⟨q, h3, h4⟩ := key 126 (by omega) (by omega) (by omega) hc hw2
    exact fin 126 q (by omega) h3 h4
  · have : n ≠ -126 := fun h => hc (hn h)
    obtain ⟨q, h3, h4⟩ := key 125 (by omega) (by omega) (by omega) hw1 (by omega)
    exact fin 125 q (by omega) h3 h4

theorem expLane_close {F : FloatUnit} (hF : IeeeArith F 8 23 32) {cv : Cvt} (hcv : IeeeCvt cv) (x : BitVec 32) (a : ℝ) (hx : IsReal 8 23 x a) (hal : -87.33 ≤ a) (hah : a ≤ 88.37) :
    Close 8 23 (expLane F (ps cv.tt cv.epi) x) (Real.exp a) (4 / 10 ^ 7 * Real.exp a) := by
  have hU := unitR_pos 8 23
  obtain ⟨v, hv, hva⟩ := hx
  have hxc : Close 8 23 x a 0 := ⟨v, hv, by rw [hva]; simp⟩
  have hvU : (v : ℝ) = a * floatUnit 8 23 := by rw [div_eq_iff (ne_of_gt hU)] at hva; exact hva
  have hUv : (floatUnit 8 23 : ℝ) = 2 ^ 149 := by norm_num [unit_ps]
  have hclamp : maxI 8 23 (minI 8 23 x 0x42b0c0a5#32) 0xc2b0c0a5#32 = x := by
    have c1 : flt 8 23 x 0x42b0c0a5#32 = true := by
      rw [flt_iff 8 23 (by decide), hv, show floatValue 8 23 0x42b0c0a5#32 = .fin (0xb0c0a5 * 2 ^ 132) from val_ps (x := 0x42b0c0a5#32) (by decide +kernel) (by decide +kernel)]
      show v < _
      have : (v : ℝ) < ((0xb0c0a5 * 2 ^ 132 : Int) : ℝ) := by
        rw [hvU, hUv]
        have := mul_le_mul_of_nonneg_right hah (show (0 : ℝ) ≤ 2 ^ 149 by positivity)
        push_cast
        refine lt_of_le_of_lt this ?_
        norm_num
      exact_mod_cast this
    have c2 : flt 8 23 0xc2b0c0a5#32 x = true := by
      rw [flt_iff 8 23 (by decide), hv, show floatValue 8 23 0xc2b0c0a5#32 = .fin (-(0xb0c0a5 * 2 ^ 132)) from val_ps (x := 0xc2b0c0a5#32) (by decide +kernel) (by decide +kernel)]
      show _ < v
      have : ((-(0xb0c0a5 * 2 ^ 132) : Int) : ℝ) < (v : ℝ) := by
        rw [hvU, hUv]
        have := mul_le_mul_of_nonneg_right hal (show (0 : ℝ) ≤ 2 ^ 149 by positivity)
        push_cast
        refine lt_of_lt_of_le ?_ this
        norm_num
      exact_mod_cast this
    unfold maxI minI
    rw [if_pos c1, if_pos c2]
  obtain ⟨n, n1, n2, hr, hfx⟩ := exp_floor hF hcv hxc hal hah
  obtain ⟨f1, f2⟩ := hfx _ _ rfl rfl
  have hred := exp_reduce hF hxc f1 n1 n2 hr
  obtain ⟨w, hw, hwe⟩ := exp_chain hF hred hr
  have hpoly := exp_poly _ hr
  have hwe' : |(w : ℝ) / floatUnit 8 23 - Real.exp (a - n * Real.log 2)| ≤ 2753 / 10 ^ 10 :=
    le_trans (abs_sub_le _ _ _) (le_trans (add_le_add hwe hpoly) (by norm_num))
  obtain ⟨r1, r2⟩ := abs_le.mp hr
  obtain ⟨e1, e2⟩ := abs_le.mp hwe'
  have el : 0.7 ≤ Real.exp (a - n * Real.log 2) := by
    obtain ⟨q1, q2⟩ := abs_le.mp hpoly
    have h0 : Real.exp (-(1733/5000)) ≤ Real.exp (a - n * Real.log 2) := Real.exp_le_exp.mpr r1
    have h1 : |expP (-(1733/5000)) - Real.exp (-(1733/5000))| ≤ 5/100000000 := exp_poly _ (by norm_num [abs_le])
    obtain ⟨q3, q4⟩ := abs_le.mp h1
    have : 0.7001 ≤ expP (-(1733/5000)) := by unfold expP; norm_num
    linarith
  have eu : Real.exp (a - n * Real.log 2) ≤ 1.5 := by
    have h0 : Real.exp (a - n * Real.log 2) ≤ Real.exp (1733/5000) := Real.exp_le_exp.mpr r2
    have h1 : |expP (1733/5000) - Real.exp (1733/5000)| ≤ 5/100000000 := exp_poly _ (by norm_num [abs_le])
    obtain ⟨q3, q4⟩ := abs_le.mp h1
    have : expP (1733/5000) ≤ 1.49 := by unfold expP; norm_num
    linarith
  have hw1 : (2 : Int) ^ 148 ≤ w := by
    have : (1/2 : ℝ) ≤ (w : ℝ) / floatUnit 8 23 := by linarith
    rw [le_div_iff₀ hU, hUv] at this
    have h' : ((2 : Int) ^ 148 : ℝ) ≤ w := le_trans (by norm_num) this
    exact_mod_cast h'
  have hw2 : w < (2 : Int) ^ 150 := by
    have : (w : ℝ) / floatUnit 8 23 ≤ 1.6 := by linarith
    rw [div_le_iff₀ hU, hUv] at this
    have h' : (w : ℝ) < (2 : Int) ^ 150 := lt_of_le_of_lt this (by norm_num)
    exact_mod_cast h'
  have hw3 : n = -126 → (2 : Int) ^ 149 ≤ w := by
    intro hn
    obtain ⟨l1, l2⟩ := log2_bounds
    have hg : 0.006 ≤ a - (n : ℝ) * Real.log 2 := by
      have e : (n : ℝ) = -126 := by rw [hn]; norm_num
      rw [e]; linarith
    have h0 := Real.add_one_le_exp (a - (n : ℝ) * Real.log 2)
    have : (1 : ℝ) ≤ (w : ℝ) / floatUnit 8 23 := by linarith
    rw [le_div_iff₀ hU, hUv] at this
    have h' : ((2 : Int) ^ 149 : ℝ) ≤ w := le_trans (by norm_num) this
    exact_mod_cast h'
  have hfin := scale_exact hF hw n1 n2 hw1 hw2 hw3 hwe'
  have hexp : Real.exp (a - n * Real.log 2) * (2 : ℝ) ^ n = Real.exp a := by
    have h2 : (2 : ℝ) ^ n = Real.exp (n * Real.log 2) := by
      rw [mul_comm, Real.exp_mul, Real.exp_log (by norm_num), Real.rpow_intCast]
    rw [h2, ← Real.exp_add]; congr 1; ring
  rw [hexp] at hfin
  have hgoal : Close 8 23 _ (Real.exp a) (4 / 10 ^ 7 * Real.exp a) := Close.weaken hfin (by
    rw [← hexp, ← mul_assoc]
    refine mul_le_mul_of_nonneg_right ?_ (by positivity)
    linarith)
  rw [← f2] at hgoal
  unfold expLane
  simp only [show (ps cv.tt cv.epi).E = 8 from rfl, show (ps cv.tt cv.epi).M = 23 from rfl, show (ps cv.tt cv.epi).expHi = 0x42b0c0a5#32 from rfl,
    show (ps cv.tt cv.epi).expLo = 0xc2b0c0a5#32 from rfl, hclamp]
  exact hgoal

end Pnumpy.Props
