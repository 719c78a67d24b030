import Verif.Proofs.TrigConvert
/-
Property theorem C90: accuracy of the vector versions of sin and cos.
-/
namespace Pnumpy.Props
open Pnumpy.Spec Pnumpy.Elem Pnumpy.Dispatch Pnumpy.Ieee Pnumpy.FloatOps Pnumpy.Trig Pnumpy.TrigTaylor

theorem half_turns (a : ℝ) (q : Nat) : a - ((2 * ((q + 1) / 2) : Nat) : ℝ) * (Real.pi / 4) = a - ((q + 1) / 2 : Nat) * (Real.pi / 2) := by
  push_cast; ring

theorem lanes_ps {F : FloatUnit} (hF : IeeeArith F 8 23 32) {cv : Cvt} (hcv : IeeeCvt cv) (x : BitVec 32) (v : Int) (hx : floatValue 8 23 x = .fin v)
    (hv : |(v : ℝ) / floatUnit 8 23| ≤ 8192) :
    Close 8 23 (sinLane F (ps cv.tt cv.epi) x) (Real.sin ((v : ℝ) / floatUnit 8 23)) (8 / 10 ^ 7) ∧
    Close 8 23 (cosLane F (ps cv.tt cv.epi) x) (Real.cos ((v : ℝ) / floatUnit 8 23)) (8 / 10 ^ 7) := by
  have hU := unitR_pos 8 23
  have hm := signMask_ps cv.tt cv.epi
  have ha : ((v.natAbs : Nat) : ℝ) / floatUnit 8 23 ≤ 8192 := by
    rw [Nat.cast_natAbs, Int.cast_abs]; rwa [abs_div, abs_of_pos hU] at hv
  have hx' : floatValue 8 23 (x &&& ~~~(ps cv.tt cv.epi).signMask) = .fin v.natAbs := by
    rw [hm]
    rcases abs_value Fmt.f32 x v hx with h1 | ⟨h1, h2, _⟩
    · exact h1.1
    · rw [show (32 - 1 : Nat) = 31 from rfl] at h2; rw [h2, h1]; rfl
  obtain ⟨q, hq, hto, hj⟩ := convert_ps hF hcv hx' ha
  refine lanes_close Fmt.f32 (by decide) hF _ hm x v hx q (by omega) hto ?_
  intro y hy mask
  have hr := angle hj
  have hR : |(v.natAbs : ℝ) / floatUnit 8 23 - ((2 * ((q + 1) / 2) : Nat) : ℝ) * (Real.pi / 4)| ≤ 79 / 100 := le_trans hr (by norm_num)
  have hred := reduce_small Fmt.f32 hF (by decide) (reduce_ps cv.tt cv.epi) (x := y) (y := (ps cv.tt cv.epi).ofInt (BitVec.ofNat 32 (2 * ((q + 1) / 2))))
    (a := (v.natAbs : ℝ) / floatUnit 8 23) (j := 2 * ((q + 1) / 2)) ⟨_, hy, by simp⟩ (ofInt_ps hcv _ (by omega))
    (by have : 2 * ((q + 1) / 2) ≤ 10440 := by omega
        exact_mod_cast this) hR
  obtain ⟨hc, hs⟩ := chain_small Fmt.f32 hF (by decide) (sinCos_ps cv.tt cv.epi) hred hR
  obtain ⟨ps', pc'⟩ := poly_small _ hR
  have hs' := Close.weaken (Close.move hs ps') (show (6693/10000000000 : ℝ) + 61/1000000000 ≤ 8 / 10 ^ 7 by norm_num)
  have hc' := Close.weaken (Close.move hc pc') (show (2657/5000000000 : ℝ) + 9/1000000000 ≤ 8 / 10 ^ 7 by norm_num)
  rw [half_turns] at hs' hc'
  exact select_close Fmt.f32 hF hc' hs'

theorem lanes_pd {F : FloatUnit} (hF : IeeeArith F 11 52 64) (x : BitVec 64) (v : Int) (hx : floatValue 11 52 x = .fin v)
    (hv : |(v : ℝ) / floatUnit 11 52| ≤ 10 ^ 9) :
    Close 11 52 (sinLane F (pd F) x) (Real.sin ((v : ℝ) / floatUnit 11 52)) (4142 / 10 ^ 9) ∧
    Close 11 52 (cosLane F (pd F) x) (Real.cos ((v : ℝ) / floatUnit 11 52)) (4142 / 10 ^ 9) := by
  have hU := unitR_pos 11 52
  have hm := signMask_pd F
  have ha : ((v.natAbs : Nat) : ℝ) / floatUnit 11 52 ≤ 10 ^ 9 := by
    rw [Nat.cast_natAbs, Int.cast_abs]; rwa [abs_div, abs_of_pos hU] at hv
  have hx' : floatValue 11 52 (x &&& ~~~(pd F).signMask) = .fin v.natAbs := by
    rw [hm]
    rcases abs_value Fmt.f64 x v hx with h1 | ⟨h1, h2, _⟩
    · exact h1.1
    · rw [show (64 - 1 : Nat) = 63 from rfl] at h2; rw [h2, h1]; rfl
  obtain ⟨q, hq, hto, hj⟩ := convert_pd hF hx' ha
  refine lanes_close Fmt.f64 (by decide) hF _ hm x v hx q (by omega) hto ?_
  intro y hy mask
  have hj' : |(v.natAbs : ℝ) / floatUnit 11 52 * (4 / Real.pi) - (2 * ((q + 1) / 2) : Nat)| ≤ 1.50001 := by
    have hc : 2 * ((q + 1) / 2) = q ∨ 2 * ((q + 1) / 2) = q + 1 := by omega
    obtain ⟨g1, g2⟩ := abs_le.mp hj
    rw [abs_le]
    rcases hc with hc | hc <;> rw [hc] <;> push_cast <;> constructor <;> linarith
  have hr := angle hj'
  have hR : |(v.natAbs : ℝ) / floatUnit 11 52 - ((2 * ((q + 1) / 2) : Nat) : ℝ) * (Real.pi / 4)| ≤ 1179 / 1000 := le_trans hr (by norm_num)
  have hred := reduce_large Fmt.f64 hF (by decide) (reduce_pd F) (x := y) (y := (pd F).ofInt (BitVec.ofNat 64 (2 * ((q + 1) / 2))))
    (a := (v.natAbs : ℝ) / floatUnit 11 52) (j := 2 * ((q + 1) / 2)) ⟨_, hy, by simp⟩ (ofInt_pd hF _ (by omega))
    (by have : 2 * ((q + 1) / 2) ≤ 1273300000 := by omega
        exact_mod_cast this) hR
  obtain ⟨hc, hs⟩ := chain_large Fmt.f64 hF (by decide) (sinCos_pd F) hred hR
  obtain ⟨ps', pc'⟩ := poly_large _ hR
  have hs' := Close.weaken (Close.move hs ps') (show (801/5000000000000 : ℝ) + 207/50000000 ≤ 4142 / 10 ^ 9 by norm_num)
  have hc' := Close.weaken (Close.move hc pc') (show (1327/10000000000000 : ℝ) + 43/100000000 ≤ 4142 / 10 ^ 9 by norm_num)
  rw [half_turns] at hs' hc'
  exact select_close Fmt.f64 hF hc' hs'

/-! ### Kernels -/

/-- **C90**: with IEEE-754 arithmetic (any tie-breaking), the vector float32 sin and cos are within `8e-7` of the mathematical sine and cosine
for every finite argument of magnitude up to 8192. -/
theorem C90_float32_accurate (F : FloatUnit) (hF : IeeeArith F 8 23 32) (L : Libm) (cv : Cvt) (hcv : IeeeCvt cv) (fn : TFn) (hfn : fn = .sin ∨ fn = .cos)
    (e : TrigFunc) (he : TrigKernel F L cv fn .f32 e) (x : BitVec e.bits) (a : ℝ) (hx : IsReal 8 23 x a) (ha : |a| ≤ 8192) :
    Close 8 23 (e.vec x) (exactFn fn a) (8 / 10 ^ 7) := by
  rcases kernelT he with ⟨_, rfl⟩ | ⟨h, _⟩
  · obtain ⟨v, hv, rfl⟩ := hx
    rcases hfn with rfl | rfl
    · exact (lanes_ps hF hcv x v hv ha).1
    · exact (lanes_ps hF hcv x v hv ha).2
  · cases h

/-- **C90**: the vector float64 sin and cos are within `4.142e-6` of the mathematical sine and cosine for every finite argument of magnitude up
to `10^9`.  Partial: nine more digits are what float64 offers (see `C90_float64_violated`). -/
theorem C90_float64_partial (F : FloatUnit) (hF : IeeeArith F 11 52 64) (L : Libm) (cv : Cvt) (fn : TFn) (hfn : fn = .sin ∨ fn = .cos)
    (e : TrigFunc) (he : TrigKernel F L cv fn .f64 e) (x : BitVec e.bits) (a : ℝ) (hx : IsReal 11 52 x a) (ha : |a| ≤ 10 ^ 9) :
    Close 11 52 (e.vec x) (exactFn fn a) (4142 / 10 ^ 9) := by
  rcases kernelT he with ⟨h, _⟩ | ⟨_, rfl⟩
  · cases h
  · obtain ⟨v, hv, rfl⟩ := hx
    rcases hfn with rfl | rfl
    · exact (lanes_pd hF x v hv ha).1
    · exact (lanes_pd hF x v hv ha).2

/-! ### float64: the argument is reduced to the wrong multiple of pi/4 -/

theorem sinP_far : 2.81E-6 ≤ |sinP (2 - Real.pi) - Real.sin (2 - Real.pi)| := by
  have h1 := Real.pi_gt_d20
  have h2 := Real.pi_lt_d20
  obtain ⟨ts, -⟩ := taylor (2 - Real.pi) (by rw [abs_le]; constructor <;> linarith)
  generalize hr : 2 - Real.pi = r at *
  have r1 : -1.1415927 ≤ r := by rw [← hr]; linarith
  have r2 : r ≤ -1.1415926 := by rw [← hr]; linarith
  have e : sinP r - Real.sin r = -(r^3 * ((-36167/300000000000) * (r^2)^0 + (1099181/937500000000) * (r^2)^1 + (-20536358867/6300000000000000) * (r^2)^2 + (1/362880) * (r^2)^3 + (-1/39916800) * (r^2)^4 + (1/6227020800) * (r^2)^5)) + (sinT r - Real.sin r) := by
    unfold sinP sinT; ring
  have z1 : 1.303233 ≤ r^2 := by nlinarith
  have z2 : r^2 ≤ 1.303234 := by nlinarith
  have c1 : 1.4877 ≤ -(r^3) := by
    have : -(r^3) = (-r) * r^2 := by ring
    rw [this]
    have := mul_le_mul (show (1.1415926 : ℝ) ≤ -r by linarith) z1 (by norm_num) (by linarith)
    linarith
  have e2 : -(r^3 * ((-36167/300000000000) * (r^2)^0 + (1099181/937500000000) * (r^2)^1 + (-20536358867/6300000000000000) * (r^2)^2 + (1/362880) * (r^2)^3 + (-1/39916800) * (r^2)^4 + (1/6227020800) * (r^2)^5)) =
    (-(r^3)) * ((-36167/300000000000) * (r^2)^0 + (1099181/937500000000) * (r^2)^1 + (-20536358867/6300000000000000) * (r^2)^2 + (1/362880) * (r^2)^3 + (-1/39916800) * (r^2)^4 + (1/6227020800) * (r^2)^5) := by ring
  rw [e2] at e
  generalize r^2 = z at *
  have hz : 0 ≤ z := by linarith
  have p2 := pow_le_pow_left₀ hz z2 2
  have p3 := pow_le_pow_left₀ (by norm_num) z1 3
  have p4 := pow_le_pow_left₀ hz z2 4
  have p5 : 0 ≤ z^5 := by positivity
  have hE : 1.896E-6 ≤ (-36167/300000000000) * z^0 + (1099181/937500000000) * z^1 + (-20536358867/6300000000000000) * z^2 + (1/362880) * z^3 + (-1/39916800) * z^4 + (1/6227020800) * z^5 := by
    norm_num at p2 p3 p4 ⊢
    linarith
  have hm := mul_le_mul c1 hE (by norm_num) (by linarith)
  obtain ⟨t1, t2⟩ := abs_le.mp ts
  refine le_trans ?_ (le_abs_self _)
  rw [e]
  linarith

/-- **C90** is false of float64: the vector routine's sin of 2.0 is wrong in the sixth digit (by more than `2.8e-6`, about `10^10` units in the last
place), with IEEE-754 arithmetic of any tie-breaking. -/
theorem C90_float64_violated (F : FloatUnit) (hF : IeeeArith F 11 52 64) (L : Libm) (cv : Cvt) (e : TrigFunc) (he : TrigKernel F L cv .sin .f64 e)
    (x : BitVec e.bits) (hx : IsReal 11 52 x 2) : ¬ Close 11 52 (e.vec x) (Real.sin 2) (28 / 10 ^ 7) := by
  rcases kernelT he with ⟨h, _⟩ | ⟨_, rfl⟩
  · cases h
  intro hcl
  have hU := unitR_pos 11 52
  have hu := unit_pos 11 52
  have hm := signMask_pd F
  obtain ⟨v, hv, hv2⟩ := hx
  change BitVec 64 at x
  change Close 11 52 (sinLane F (pd F) x) _ _ at hcl
  have hvU : (v : ℝ) = 2 * floatUnit 11 52 := by rw [div_eq_iff (ne_of_gt hU)] at hv2; exact hv2
  have hvI : v = 2 * floatUnit 11 52 := by exact_mod_cast hvU
  have hvn : ((v.natAbs : Nat) : ℝ) / floatUnit 11 52 = 2 := by
    rw [Nat.cast_natAbs, abs_of_nonneg (by omega)]; exact hv2
  have habs := abs_value Fmt.f64 x v hv
  rw [show (64 - 1 : Nat) = 63 from rfl] at habs
  rcases habs with ⟨hx', hsg⟩ | ⟨h1, _⟩
  swap
  · omega
  rw [if_neg (by omega)] at hsg
  rw [← hm] at hx' hsg
  obtain ⟨q, hq, hto, hj⟩ := convert_pd hF hx' (by rw [hvn]; norm_num)
  rw [hvn] at hj
  obtain ⟨f1, f2⟩ := fourOverPi_bounds
  obtain ⟨g1, g2⟩ := abs_le.mp hj
  have hq3 : q = 3 := by
    have a1 : (2 : ℝ) < q := by linarith
    have a2 : (q : ℝ) < 4 := by linarith
    have a1' : 2 < q := by exact_mod_cast a1
    have a2' : q < 4 := by exact_mod_cast a2
    omega
  subst hq3
  have h1 := Real.pi_gt_d20
  have h2 := Real.pi_lt_d20
  have hR : |(2 : ℝ) - ((4 : Nat) : ℝ) * (Real.pi / 4)| ≤ 1179 / 1000 := by
    push_cast; rw [abs_le]; constructor <;> linarith
  have hred := reduce_large Fmt.f64 hF (by decide) (reduce_pd F) (x := x &&& ~~~(pd F).signMask) (y := (pd F).ofInt (BitVec.ofNat 64 4))
    (a := 2) (j := 4) ⟨_, hx', by rw [show ((v.natAbs : Int) : ℝ) = ((v.natAbs : Nat) : ℝ) by rfl, hvn]; simp⟩ (ofInt_pd hF _ (by omega)) (by norm_num) hR
  obtain ⟨hc, hs⟩ := chain_large Fmt.f64 hF (by decide) (sinCos_pd F) hred hR
  rw [show (2 : ℝ) - ((4 : Nat) : ℝ) * (Real.pi / 4) = 2 - Real.pi by push_cast; ring] at hc hs
  have hsel := select_close Fmt.f64 hF (b := true) (Close.weaken hc (show _ ≤ (801/5000000000000 : ℝ) by norm_num)) hs
  rw [if_pos rfl] at hsel
  have hflip := flip_close Fmt.f64 hsel
  have heq : sinLane F (pd F) x = sincosPoly F (pd F) (x &&& ~~~(pd F).signMask) ((pd F).ofInt (BitVec.ofNat 64 4)) (maskOf true) ^^^ BitVec.twoPow 64 (64 - 1) := by
    unfold sinLane
    simp only
    rw [hto, hsg]
    rw [show (BitVec.ofNat 64 3 + 1 &&& ~~~1 : BitVec 64) = BitVec.ofNat 64 4 by decide,
      show ((BitVec.ofNat 64 4 &&& 4) <<< (64 - 3) : BitVec 64) = BitVec.twoPow 64 (64 - 1) by decide,
      show (BitVec.ofNat 64 4 &&& 2 == 0 : Bool) = true by decide]
    rw [show (0 ^^^ BitVec.twoPow 64 (64 - 1) : BitVec 64) = BitVec.twoPow 64 (64 - 1) by decide]
  rw [heq] at hcl
  obtain ⟨w, w1, w2⟩ := hcl
  obtain ⟨w', w1', w2'⟩ := hflip
  have : w = w' := Value.fin.inj (w1.symm.trans w1')
  subst this
  have hsin : Real.sin 2 = -Real.sin (2 - Real.pi) := by rw [Real.sin_sub_pi]; ring
  have hfar := sinP_far
  rw [hsin] at w2
  generalize Real.sin (2 - Real.pi) = S at *
  generalize sinP (2 - Real.pi) = P at *
  rw [abs_le] at w2 w2'
  rcases abs_cases (P - S) with ⟨h, _⟩ | ⟨h, _⟩ <;> rw [h] at hfar <;> linarith [w2.1, w2.2, w2'.1, w2'.2]

/-! ### float32: larger arguments -/

/-- Reduction of 6491234: the first product is a quarter off. -/
theorem reduce_far {F : FloatUnit} (hF : IeeeArith F 8 23 32) {cv : Cvt} (hcv : IeeeCvt cv) {x : BitVec 32} (hx : floatValue 8 23 x = .fin (6491234 * 2 ^ 149)) :
    ∃ r : ℝ, Close 8 23 (F.add 32 (F.add 32 (F.add 32 x (F.mul 32 ((ps cv.tt cv.epi).ofInt (BitVec.ofNat 32 8264896)) (ps cv.tt cv.epi).dp1))
        (F.mul 32 ((ps cv.tt cv.epi).ofInt (BitVec.ofNat 32 8264896)) (ps cv.tt cv.epi).dp2)) (F.mul 32 ((ps cv.tt cv.epi).ofInt (BitVec.ofNat 32 8264896)) (ps cv.tt cv.epi).dp3)) r 0 ∧
      (|r - (-0.389)| ≤ 0.001 ∨ |r - 0.111| ≤ 0.001) := by
  have hy := ofInt_ps hcv 8264896 (by decide)
  generalize (ps cv.tt cv.epi).ofInt (BitVec.ofNat 32 8264896) = y at *
  have hC := reduce_ps cv.tt cv.epi
  have hU := unitR_pos 8 23
  have hd1 : floatValue 8 23 (ps cv.tt cv.epi).dp1 = .fin (-201 * 2 ^ 141) := val_ps (x := 0xbf490000#32) (by decide +kernel) (by decide +kernel)
  obtain ⟨a1, ha1⟩ := dyadic_is_float Fmt.f32 (-12978470) 148 (by decide) (by decide)
  obtain ⟨a2, ha2⟩ := dyadic_is_float Fmt.f32 (-12978469) 148 (by decide) (by decide)
  obtain ⟨p, hp, p1, p2⟩ := mul_between hF hy hd1 ha1 ha2 (by rw [unit_ps]; decide +kernel) (by rw [unit_ps]; decide +kernel)
  have hdvd : (2 : Int) ^ 148 ∣ p := by
    refine big_multiple hp ?_
    have : (2 : Nat) ^ (23 + 148) = 2 ^ 23 * 2 ^ 148 := by decide +kernel
    rw [this]
    generalize hP : (2 : Int) ^ 148 = P at *
    have : ((2 ^ 148 : Nat) : Int) = P := by rw [← hP]; rfl
    generalize (2 : Nat) ^ 148 = Q at *
    omega
  obtain ⟨d, hd⟩ := hdvd
  have hdc : d = -12978470 ∨ d = -12978469 := by
    rw [hd, mul_comm _ d] at p1 p2
    have hP : (0 : Int) < 2 ^ 148 := by positivity
    have := Int.le_of_mul_le_mul_right p1 hP
    have := Int.le_of_mul_le_mul_right p2 hP
    omega
  -- the first sum is exact
  obtain ⟨s1, hs1⟩ := dyadic_is_float Fmt.f32 (12982468 + d) 148 (by omega) (by decide)
  have hsum := add_exact hF hx hp hs1 (by rw [hd]; generalize hP : (2 : Int) ^ 148 = P; rw [show (2 : Int) ^ 149 = 2 * P by rw [← hP]; rfl]; ring)
  have hsumc : Close 8 23 (F.add 32 x (F.mul 32 y (ps cv.tt cv.epi).dp1)) ((12982468 + d) / 2) 0 :=
    close_dyadic unit_ps (s := 1) hsum rfl (by push_cast; norm_num)
  have hyc := int_close hy
  have ht := tiny Fmt.f32
  obtain ⟨q1, q2, q3, q4⟩ := pi_parts
  have hd2 := Close.mul Fmt.f32 hF hyc hC.dp2 (A := 8264896) (B := 1/4000) (by norm_num) (by rw [abs_neg, abs_of_nonneg (by norm_num)]; norm_num) (by norm_num)
  have hd3 := Close.mul Fmt.f32 hF hyc hC.dp3 (A := 8264896) (B := 1/10000000) (by norm_num) (by rw [abs_neg, abs_of_nonneg q3]; norm_num at *; linarith) (by norm_num)
  have hS : |(12982468 + (d : ℝ)) / 2 - 1999.25| ≤ 1/4 := by
    rcases hdc with rfl | rfl <;> push_cast <;> norm_num [abs_le]
  have hd2' := Close.weaken hd2 (δ := 1/5000) (by norm_num at *; linarith)
  have hd3' := Close.weaken hd3 (δ := 1/5000) (by norm_num at *; linarith)
  have h4 := Close.add Fmt.f32 hF hsumc hd2' (B := 10) (by
    obtain ⟨g1, g2⟩ := abs_le.mp hS
    have : |(12982468 + (d : ℝ)) / 2 + ((8264896 : Nat) : ℝ) * -(2029 / 8388608)| ≤ 9 := by
      rw [abs_le]; push_cast; constructor <;> linarith
    linarith) (by norm_num)
  have hd3b : |((8264896 : Nat) : ℝ) * -(Real.pi / 4 - 201 / 256 - 2029 / 8388608)| ≤ 1 := by
    rw [abs_le]; push_cast
    constructor <;> nlinarith
  have h5 := Close.add Fmt.f32 hF h4 hd3' (B := 20) (by
    obtain ⟨g1, g2⟩ := abs_le.mp hS
    obtain ⟨g3, g4⟩ := abs_le.mp hd3b
    have : |(12982468 + (d : ℝ)) / 2 + ((8264896 : Nat) : ℝ) * -(2029 / 8388608) + ((8264896 : Nat) : ℝ) * -(Real.pi / 4 - 201 / 256 - 2029 / 8388608)| ≤ 12 := by
      rw [abs_le]; push_cast at *; constructor <;> linarith
    have hq : (1 : ℝ) / floatUnit 8 23 ≤ 1 := le_trans ht (by norm_num)
    linarith) (by norm_num)
  obtain ⟨w, hw, hwe⟩ := h5
  refine ⟨(w : ℝ) / floatUnit 8 23, ⟨w, hw, by simp⟩, ?_⟩
  have h1 := Real.pi_gt_d20
  have h2 := Real.pi_lt_d20
  obtain ⟨g1, g2⟩ := abs_le.mp hwe
  rcases hdc with rfl | rfl
  · left; rw [abs_le]; push_cast at *; norm_num at *; constructor <;> linarith
  · right; rw [abs_le]; push_cast at *; norm_num at *; constructor <;> linarith

/-- **C90** is false of float32 arguments beyond the range of `C90_float32_accurate`: the vector routine's sin of 6491234 is wrong by more than 0.1. -/
theorem C90_float32_large_violated (F : FloatUnit) (hF : IeeeArith F 8 23 32) (L : Libm) (cv : Cvt) (hcv : IeeeCvt cv) (e : TrigFunc)
    (he : TrigKernel F L cv .sin .f32 e) (x : BitVec e.bits) (hx : IsReal 8 23 x 6491234) : ¬ Close 8 23 (e.vec x) (Real.sin 6491234) (1 / 10) := by
  rcases kernelT he with ⟨_, rfl⟩ | ⟨h, _⟩
  swap
  · cases h
  intro hcl
  have hU := unitR_pos 8 23
  have hu := unit_pos 8 23
  have hm := signMask_ps cv.tt cv.epi
  obtain ⟨v, hv, hv2⟩ := hx
  change BitVec 32 at x
  change Close 8 23 (sinLane F (ps cv.tt cv.epi) x) _ _ at hcl
  have hvU : (v : ℝ) = 6491234 * floatUnit 8 23 := by rw [div_eq_iff (ne_of_gt hU)] at hv2; exact hv2
  have hvI : v = 6491234 * floatUnit 8 23 := by exact_mod_cast hvU
  have habs := abs_value Fmt.f32 x v hv
  rw [show (32 - 1 : Nat) = 31 from rfl] at habs
  rcases habs with ⟨hx', hsg⟩ | ⟨h1, _⟩
  swap
  · omega
  rw [if_neg (by omega)] at hsg
  rw [← hm] at hx' hsg
  rw [show (v.natAbs : Int) = 6491234 * 2 ^ 149 by rw [hvI, unit_ps]; rfl] at hx'
  -- the quotient
  have hf : floatValue 8 23 (ps cv.tt cv.epi).fopi = .fin (10680707 * 2 ^ 126) := val_ps (x := 0x3fa2f983#32) (by decide +kernel) (by decide +kernel)
  obtain ⟨a1, ha1⟩ := dyadic_is_float Fmt.f32 16529790 148 (by decide) (by decide)
  obtain ⟨a2, ha2⟩ := dyadic_is_float Fmt.f32 16529791 148 (by decide) (by decide)
  obtain ⟨p, hp, p1, p2⟩ := mul_between hF hx' hf ha1 ha2 (by rw [unit_ps]; decide +kernel) (by rw [unit_ps]; decide +kernel)
  have hq : p.tdiv (floatUnit 8 23) = 8264895 := by
    have hp0 : 0 ≤ p := le_trans (by decide +kernel) p1
    rw [Int.tdiv_eq_ediv_of_nonneg hp0, unit_ps]
    have e9 : (2 : Int) ^ 149 = 2 * 2 ^ 148 := by decide +kernel
    rw [e9]
    have hP : (0 : Int) < 2 ^ 148 := by positivity
    generalize (2 : Int) ^ 148 = P at *
    rw [Int.ediv_eq_iff_of_pos (by omega)]
    omega
  have hto : (ps cv.tt cv.epi).toInt (F.mul 32 (x &&& ~~~(ps cv.tt cv.epi).signMask) (ps cv.tt cv.epi).fopi) = BitVec.ofNat 32 8264895 := by
    show cv.tt _ = _
    rw [hcv.tt _ p hp (by rw [hq]; decide), hq]; rfl
  obtain ⟨r, hr, hrc⟩ := reduce_far hF hcv hx'
  have hR : |r| ≤ 79 / 100 := by
    rcases hrc with h | h <;> rw [abs_le] at * <;> constructor <;> linarith [h.1, h.2]
  obtain ⟨hc, hs⟩ := chain_small Fmt.f32 hF (by decide) (sinCos_ps cv.tt cv.epi) (Close.weaken hr (by norm_num)) hR
  have hsel := select_close Fmt.f32 hF (b := true) (Close.weaken hc (show _ ≤ (6693/10000000000 : ℝ) by norm_num)) hs
  rw [if_pos rfl] at hsel
  have heq : sinLane F (ps cv.tt cv.epi) x = sincosPoly F (ps cv.tt cv.epi) (x &&& ~~~(ps cv.tt cv.epi).signMask) ((ps cv.tt cv.epi).ofInt (BitVec.ofNat 32 8264896)) (maskOf true) := by
    unfold sinLane
    simp only
    rw [hto, hsg]
    rw [show (BitVec.ofNat 32 8264895 + 1 &&& ~~~1 : BitVec 32) = BitVec.ofNat 32 8264896 by decide,
      show ((BitVec.ofNat 32 8264896 &&& 4) <<< (32 - 3) : BitVec 32) = 0 by decide,
      show (BitVec.ofNat 32 8264896 &&& 2 == 0 : Bool) = true by decide]
    rw [show (0 ^^^ 0 : BitVec 32) = 0 by decide]
    exact BitVec.xor_zero
  rw [heq] at hcl
  obtain ⟨w, w1, w2⟩ := hcl
  obtain ⟨w', w1', w2'⟩ := hsel
  have : w = w' := Value.fin.inj (w1.symm.trans w1')
  subst this
  obtain ⟨pl, -⟩ := poly_small r hR
  -- the true value
  have h1 := Real.pi_gt_d20
  have h2 := Real.pi_lt_d20
  have hsin : Real.sin 6491234 = -Real.sin (((4132448 : Nat) : ℝ) * (Real.pi / 2) - 6491234) := by
    have := sin_quadrant (6491234 - ((4132448 : Nat) : ℝ) * (Real.pi / 2)) 4132448
    rw [if_neg (by decide), if_pos (by decide), one_mul, sub_add_cancel] at this
    rw [this, ← Real.sin_neg, neg_sub]
  have t1 : 0.139 ≤ ((4132448 : Nat) : ℝ) * (Real.pi / 2) - 6491234 := by push_cast; norm_num at *; linarith
  have t2 : ((4132448 : Nat) : ℝ) * (Real.pi / 2) - 6491234 ≤ 0.13908 := by push_cast; norm_num at *; linarith
  rw [hsin] at w2
  generalize ((4132448 : Nat) : ℝ) * (Real.pi / 2) - 6491234 = t at *
  have st1 := Real.sin_lt (show 0 < t by linarith)
  have st2 : 0.138 ≤ Real.sin t := by
    have := Real.sin_gt_sub_cube (show 0 < t by linarith)
    have c3 := pow_le_pow_left₀ (show 0 ≤ t by linarith) t2 3
    norm_num at *; linarith
  obtain ⟨u1, u2⟩ := abs_le.mp w2
  obtain ⟨u3, u4⟩ := abs_le.mp w2'
  obtain ⟨u5, u6⟩ := abs_le.mp pl
  rcases hrc with h | h
  · obtain ⟨b1, b2⟩ := abs_le.mp h
    have hn : 0 < -r := by linarith
    have := Real.sin_gt_sub_cube hn
    rw [Real.sin_neg] at this
    have c3 : (-r) ^ 3 ≤ 0.0602 := by
      have := pow_le_pow_left₀ hn.le (show -r ≤ 0.39 by linarith) 3
      norm_num at *; linarith
    norm_num at *
    linarith
  · obtain ⟨b1, b2⟩ := abs_le.mp h
    have := Real.sin_pos_of_pos_of_lt_pi (show 0 < r by linarith) (by linarith)
    linarith

/-! ### Calls -/

/-- **C90**: after a float32 sin or cos call, threaded or not, on any length, addresses and strides, under every setting, schedule and interleaving,
every output element whose input is finite and at most 8192 in magnitude is within `8e-7` of the mathematical function of that input - provided the
library function used for the elements outside whole vectors is that accurate. -/
theorem C90_call_float32 (F : FloatUnit) (hF : IeeeArith F 8 23 32) (L : Libm) (cv : Cvt) (hcv : IeeeCvt cv) (fn : TFn) (hfn : fn = .sin ∨ fn = .cos)
    (e : TrigFunc) (he : TrigKernel F L cv fn .f32 e)
    (w : World) (p s po so : Int) (hso : so ≠ 0) (n : Nat) (m : Int → BitVec e.bits) (hsafe : SafeOverlap n p s p s po so)
    (evs : List (Nat × MAcc)) (hex : TrigExec 4 p s po so n w evs) :
    ∃ m', runMemM e.f m evs = some m' ∧ ∀ i : Nat, i < n → ∀ a : ℝ, IsReal 8 23 (m (p + s * i)) a → |a| ≤ 8192 →
      (¬ VectorPosition 4 s so n i → Close 8 23 (e.sca (m (p + s * i))) (exactFn fn a) (8 / 10 ^ 7)) →
      Close 8 23 (m' (po + so * i)) (exactFn fn a) (8 / 10 ^ 7) := by
  have hb : e.bits / 8 = 4 := by
    rcases kernelT he with ⟨_, rfl⟩ | ⟨h, _⟩
    · show 32 / 8 = 4; decide
    · cases h
  rw [← hb] at hex
  obtain ⟨m', r1, r2, _⟩ := C59_kernel F L cv fn .f32 e he w p s po so hso n m hsafe evs hex
  refine ⟨m', r1, ?_⟩
  intro i hi a ha hle hsc
  rw [r2 i hi]
  rw [hb]
  by_cases hv : VectorPosition 4 s so n i
  · simp only [if_pos hv]
    exact C90_float32_accurate F hF L cv hcv fn hfn e he _ a ha hle
  · simp only [if_neg hv]
    exact hsc hv

/-- **C90** is false of float64 calls: np.sin of a contiguous array of four 2.0 gives four numbers that are wrong by more than `2.8e-6`, while with
any other layout every element is computed by the library function. -/
theorem C90_call_float64_violated (F : FloatUnit) (hF : IeeeArith F 11 52 64) (L : Libm) (cv : Cvt)
    (e : TrigFunc) (he : TrigKernel F L cv .sin .f64 e) (m : Int → BitVec e.bits) (hm : ∀ a, IsReal 11 52 (m a) 2) (w : World) :
    (∀ evs, TrigExec 8 0 8 1000 8 4 w evs → ∃ m', runMemM e.f m evs = some m' ∧
      ∀ i : Nat, i < 4 → ¬ Close 11 52 (m' (1000 + 8 * i)) (Real.sin 2) (28 / 10 ^ 7)) ∧
    (∀ evs, TrigExec 8 0 16 1000 8 4 w evs → ∃ m', runMemM e.f m evs = some m' ∧
      ∀ i : Nat, i < 4 → m' (1000 + 8 * i) = e.sca (m (16 * i))) := by
  have hb : e.bits / 8 = 8 := by
    rcases kernelT he with ⟨h, _⟩ | ⟨_, rfl⟩
    · cases h
    · show 64 / 8 = 8; decide
  constructor
  · intro evs hex
    rw [← hb] at hex
    obtain ⟨m', r1, r2, _⟩ := C59_kernel F L cv .sin .f64 e he w 0 8 1000 8 (by decide) 4 m
      (by intro i j hi hj hne; omega) evs hex
    refine ⟨m', r1, ?_⟩
    intro i hi
    have := r2 i hi
    rw [hb] at this
    rw [this]
    have hv : VectorPosition 8 8 8 4 i := ⟨rfl, rfl, by omega⟩
    simp only [if_pos hv]
    exact C90_float64_violated F hF L cv e he _ (hm _)
  · intro evs hex
    rw [← hb] at hex
    obtain ⟨m', r1, r2, _⟩ := C59_kernel F L cv .sin .f64 e he w 0 16 1000 8 (by decide) 4 m
      (by intro i j hi hj hne; omega) evs hex
    refine ⟨m', r1, ?_⟩
    intro i hi
    have := r2 i hi
    rw [hb] at this
    rw [this]
    have hv : ¬ VectorPosition 8 16 8 4 i := fun h => absurd h.1 (by decide)
    simp only [if_neg hv, Int.zero_add]

/-! ### Non-vacuity -/

/-- Numbers in range: 1.5, -8000.25 and 6491234 (float32), 2 and 10^9 (float64). -/
theorem isReal_examples : IsReal 8 23 0x3fc00000#32 1.5 ∧ IsReal 8 23 0xc5fa0200#32 (-8000.25) ∧ IsReal 8 23 0x4ac618c4#32 6491234 ∧
    IsReal 11 52 0x4000000000000000#64 2 ∧ IsReal 11 52 0x41cdcd6500000000#64 (10 ^ 9) := by
  have key : ∀ {E M k L : Nat} {x : BitVec k} {m : Int} {t s : Nat}, floatUnit E M = 2 ^ L → floatValue E M x = .fin (m * 2 ^ t) → t + s = L → ∀ {a : ℝ}, (m : ℝ) / 2 ^ s = a → IsReal E M x a := by
    intro E M k L x m t s hU hv hs a ha
    obtain ⟨v, h1, h2⟩ := close_dyadic hU hv hs (show |(m : ℝ) / 2 ^ s - a| ≤ 0 by rw [ha]; simp)
    exact ⟨v, h1, by have := abs_nonpos_iff.mp h2; linarith⟩
  exact ⟨key unit_ps (val_ps (v := 3 * 2 ^ 148) (by decide +kernel) (by decide +kernel)) (s := 1) rfl (by norm_num),
    key unit_ps (val_ps (v := (-32001) * 2 ^ 147) (by decide +kernel) (by decide +kernel)) (s := 2) rfl (by norm_num),
    key unit_ps (val_ps (v := 6491234 * 2 ^ 149) (by decide +kernel) (by decide +kernel)) (s := 0) rfl (by norm_num),
    key unit_pd (val_pd (v := 2 * 2 ^ 1074) (by decide +kernel) (by decide +kernel)) (s := 0) rfl (by norm_num),
    key unit_pd (val_pd (v := 1000000000 * 2 ^ 1074) (by decide +kernel) (by decide +kernel)) (s := 0) rfl (by norm_num)⟩

/-- All hypotheses of the C90 theorems are met together. -/
example (L : Libm) : ∃ (F : FloatUnit) (cv : Cvt) (e : TrigFunc), IeeeArith F 8 23 32 ∧ IeeeCvt cv ∧ TrigKernel F L cv .sin .f32 e ∧
    (∃ x : BitVec e.bits, IsReal 8 23 x (-8000.25) ∧ |(-8000.25 : ℝ)| ≤ 8192) ∧ (∃ x : BitVec e.bits, IsReal 8 23 x 6491234) ∧
    (∃ evs, TrigExec 4 0 4 1000 4 9 ⟨true, true, false, false, 8, 1⟩ evs) := by
  obtain ⟨F, hF, -⟩ := ieeeArith_exists Fmt.f32
  obtain ⟨cv, hcv⟩ := ieeeCvt_exists
  exact ⟨F, cv, ⟨32, vecFn F (ps cv.tt cv.epi) .sin, L.fn .sin 32⟩, hF, hcv, ⟨.SIN, by decide, rfl⟩, ⟨_, isReal_examples.2.1, by norm_num [abs_le]⟩,
    ⟨_, isReal_examples.2.2.1⟩, C59_call_finishes ..⟩

example (L : Libm) (cv : Cvt) : ∃ (F : FloatUnit) (e : TrigFunc), IeeeArith F 11 52 64 ∧ TrigKernel F L cv .sin .f64 e ∧
    (∃ m : Int → BitVec e.bits, ∀ a, IsReal 11 52 (m a) 2) ∧ (∃ x : BitVec e.bits, IsReal 11 52 x (10 ^ 9) ∧ |(10 ^ 9 : ℝ)| ≤ 10 ^ 9) := by
  obtain ⟨F, hF, -⟩ := ieeeArith_exists Fmt.f64
  exact ⟨F, ⟨64, vecFn F (pd F) .sin, L.fn .sin 64⟩, hF, ⟨.SIN, by decide, rfl⟩, ⟨fun _ => 0x4000000000000000#64, fun _ => isReal_examples.2.2.2.1⟩,
    ⟨_, isReal_examples.2.2.2.2, by norm_num [abs_le]⟩⟩

end Pnumpy.Props
