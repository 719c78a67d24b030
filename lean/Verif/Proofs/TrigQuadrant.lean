import Verif.Proofs.TrigChain
/-
The quadrant arithmetic of sin256/cos256: bits of the rounded quotient, signs, and the angles they stand for.
-/
namespace Pnumpy.Props
open Spec Ieee Trig

/-! ### Bits -/

theorem two_pow_mod8 {k : Nat} (hk : 3 ≤ k) : 2 ^ k % 8 = 0 := by
  obtain ⟨d, rfl⟩ := Nat.exists_eq_add_of_le hk
  rw [Nat.pow_add]; omega

/-- `j &&& 2` is zero when the second bit of `j` is. -/
theorem and_two {k : Nat} (hk : 3 ≤ k) (j : BitVec k) : (j &&& 2 == 0) = decide (j.toNat / 2 % 2 = 0) := by
  have h2 : (2 : BitVec k) = BitVec.twoPow k 1 := by
    apply BitVec.eq_of_toNat_eq
    rw [BitVec.toNat_twoPow]; rfl
  rw [h2, BitVec.and_twoPow]
  have hb : j.getLsbD 1 = decide (j.toNat / 2 % 2 = 1) := by
    rw [BitVec.getLsbD, Nat.testBit_eq_decide_div_mod_eq]
  rw [hb]
  by_cases h : j.toNat / 2 % 2 = 1
  · have hne : ¬ BitVec.twoPow k 1 = 0#k := by
      intro he
      have := congrArg BitVec.toNat he
      rw [BitVec.toNat_twoPow, Nat.mod_eq_of_lt (Nat.pow_lt_pow_right (by decide) (by omega))] at this
      simp at this
    simp [h, hne]
  · have h0 : j.toNat / 2 % 2 = 0 := by omega
    simp [h0]

/-- The quadrant bit shifted to the sign position. -/
theorem and_four {k : Nat} (hk : 3 ≤ k) (j : BitVec k) :
    (j &&& 4) <<< (k - 3) = if j.toNat / 4 % 2 = 1 then BitVec.twoPow k (k - 1) else 0 := by
  have h4 : (4 : BitVec k) = BitVec.twoPow k 2 := by
    apply BitVec.eq_of_toNat_eq
    rw [BitVec.toNat_twoPow]; rfl
  rw [h4, BitVec.and_twoPow]
  have hb : j.getLsbD 2 = decide (j.toNat / 4 % 2 = 1) := by
    rw [BitVec.getLsbD, Nat.testBit_eq_decide_div_mod_eq]
  rw [hb]
  by_cases h : j.toNat / 4 % 2 = 1
  · rw [if_pos h, if_pos (by simpa using h)]
    apply BitVec.eq_of_toNat_eq
    rw [BitVec.toNat_shiftLeft, BitVec.toNat_twoPow, BitVec.toNat_twoPow, Nat.mod_eq_of_lt (Nat.pow_lt_pow_right (by decide) (by omega) : 2 ^ 2 < 2 ^ k),
      Nat.shiftLeft_eq, ← Nat.pow_add, show 2 + (k - 3) = k - 1 by omega]
  · rw [if_neg h, if_neg (by simpa using h)]
    simp

/-- `(q + 1) & ~1`. -/
theorem even_up {k : Nat} (hk : 3 ≤ k) (q : Nat) (hq : q + 1 < 2 ^ k) : (BitVec.ofNat k q + 1) &&& ~~~1 = BitVec.ofNat k (2 * ((q + 1) / 2)) := by
  apply BitVec.eq_of_toNat_eq
  have h1 : (BitVec.ofNat k q + 1) = BitVec.ofNat k (q + 1) := by
    apply BitVec.eq_of_toNat_eq
    simp [BitVec.toNat_add]
  rw [h1]
  have hle : 2 * ((q + 1) / 2) ≤ q + 1 := Nat.mul_div_le _ _
  rw [BitVec.toNat_ofNat, Nat.mod_eq_of_lt (by omega : 2 * ((q + 1) / 2) < 2 ^ k)]
  apply Nat.eq_of_testBit_eq
  intro i
  rw [← BitVec.getLsbD, BitVec.getLsbD_and, BitVec.getLsbD_not, BitVec.getLsbD_ofNat, show (1 : BitVec k) = 1#k from rfl, BitVec.getLsbD_one]
  cases i with
  | zero => simp
  | succ i =>
    rw [show 2 * ((q + 1) / 2) = 2 ^ 1 * ((q + 1) / 2) by rw [Nat.pow_one], Nat.testBit_two_pow_mul]
    have : (q + 1).testBit (i + 1) = ((q + 1) / 2).testBit i := by rw [Nat.testBit_succ]
    rw [this]
    by_cases hlt : i + 1 < k
    · simp [hlt]
    · have : ((q + 1) / 2).testBit i = false := by
        rw [← this]
        exact Nat.testBit_lt_two_pow (Nat.lt_of_lt_of_le hq (Nat.pow_le_pow_right (by decide) (by omega)))
      simp [hlt, this]

/-! ### Signs -/

theorem flip_close {E M k : Nat} (h : Fmt E M k) {x : BitVec k} {t ε : ℝ} (hx : Close E M x t ε) : Close E M (x ^^^ BitVec.twoPow k (k - 1)) (-t) ε := by
  obtain ⟨v, h1, h2⟩ := hx
  refine ⟨-v, ?_, ?_⟩
  · have := flipSign_value h x
    rw [h1] at this; exact this
  · push_cast
    rw [show -(v : ℝ) / (floatUnit E M : ℝ) - -t = -((v : ℝ) / (floatUnit E M : ℝ) - t) by ring, abs_neg]
    exact h2

/-- Selecting one of the two polynomials with a mask. -/
theorem select_close {F : FloatUnit} {E M k : Nat} (h : Fmt E M k) (hF : IeeeArith F E M k) {y y2 : BitVec k} {b : Bool} {t t2 ε : ℝ}
    (hy : Close E M y t ε) (hy2 : Close E M y2 t2 ε) :
    Close E M (F.add k (~~~(maskOf b : BitVec k) &&& y) (maskOf b &&& y2)) (if b then t2 else t) ε := by
  cases b
  · obtain ⟨v, h1, h2⟩ := hy
    refine ⟨v, ?_, by simpa using h2⟩
    have : ~~~(maskOf false : BitVec k) &&& y = y := by unfold maskOf; simp
    rw [this, show (maskOf false : BitVec k) &&& y2 = 0 by unfold maskOf; simp]
    exact add_zeroR hF h h1 (value_zeroPattern h)
  · obtain ⟨v, h1, h2⟩ := hy2
    refine ⟨v, ?_, by simpa using h2⟩
    have : (maskOf true : BitVec k) &&& y2 = y2 := by unfold maskOf; simp
    rw [this, show ~~~(maskOf true : BitVec k) &&& y = 0 by unfold maskOf; simp]
    exact add_zeroL hF h (value_zeroPattern h) h1

/-! ### Angles -/

theorem sin_quadrant (r : ℝ) (m : Nat) : Real.sin (r + m * (Real.pi / 2)) =
    (if m / 2 % 2 = 1 then -1 else 1) * (if m % 2 = 0 then Real.sin r else Real.cos r) := by
  have hm : m = 4 * (m / 4) + m % 4 := (Nat.div_add_mod m 4).symm
  have e : r + (m : ℝ) * (Real.pi / 2) = (r + (m % 4 : Nat) * (Real.pi / 2)) + (m / 4 : Nat) * (2 * Real.pi) := by
    have : (m : ℝ) = 4 * ((m / 4 : Nat) : ℝ) + ((m % 4 : Nat) : ℝ) := by exact_mod_cast hm
    rw [this]; ring
  rw [e, Real.sin_add_nat_mul_two_pi]
  have h4 : m % 4 < 4 := Nat.mod_lt _ (by decide)
  have c : m % 4 = 0 ∨ m % 4 = 1 ∨ m % 4 = 2 ∨ m % 4 = 3 := by omega
  rcases c with c | c | c | c <;> rw [c]
  · rw [if_neg (by omega), if_pos (by omega)]; simp
  · rw [if_neg (by omega), if_neg (by omega)]; simp [Real.sin_add_pi_div_two]
  · rw [if_pos (by omega), if_pos (by omega)]
    rw [show r + ((2 : Nat) : ℝ) * (Real.pi / 2) = r + Real.pi by push_cast; ring, Real.sin_add_pi]; ring
  · rw [if_pos (by omega), if_neg (by omega)]
    rw [show r + ((3 : Nat) : ℝ) * (Real.pi / 2) = (r + Real.pi / 2) + Real.pi by push_cast; ring, Real.sin_add_pi, Real.sin_add_pi_div_two]; ring

theorem cos_quadrant (r : ℝ) (m : Nat) : Real.cos (r + m * (Real.pi / 2)) =
    (if (m + 1) / 2 % 2 = 1 then -1 else 1) * (if m % 2 = 0 then Real.cos r else Real.sin r) := by
  have hm : m = 4 * (m / 4) + m % 4 := (Nat.div_add_mod m 4).symm
  have e : r + (m : ℝ) * (Real.pi / 2) = (r + (m % 4 : Nat) * (Real.pi / 2)) + (m / 4 : Nat) * (2 * Real.pi) := by
    have : (m : ℝ) = 4 * ((m / 4 : Nat) : ℝ) + ((m % 4 : Nat) : ℝ) := by exact_mod_cast hm
    rw [this]; ring
  rw [e, Real.cos_add_nat_mul_two_pi]
  have c : m % 4 = 0 ∨ m % 4 = 1 ∨ m % 4 = 2 ∨ m % 4 = 3 := by omega
  rcases c with c | c | c | c <;> rw [c]
  · rw [if_neg (by omega), if_pos (by omega)]; simp
  · rw [if_pos (by omega), if_neg (by omega)]; simp [Real.cos_add_pi_div_two]
  · rw [if_pos (by omega), if_pos (by omega)]
    rw [show r + ((2 : Nat) : ℝ) * (Real.pi / 2) = r + Real.pi by push_cast; ring, Real.cos_add_pi]; ring
  · rw [if_neg (by omega), if_neg (by omega)]
    rw [show r + ((3 : Nat) : ℝ) * (Real.pi / 2) = (r + Real.pi / 2) + Real.pi by push_cast; ring, Real.cos_add_pi, Real.cos_add_pi_div_two]; ring

/-- |x|. -/
theorem abs_value {E M k : Nat} (h : Fmt E M k) (x : BitVec k) (v : Int) (hx : floatValue E M x = .fin v) :
    floatValue E M (x &&& ~~~BitVec.twoPow k (k - 1)) = .fin v.natAbs ∧
    (x &&& BitVec.twoPow k (k - 1) = if v < 0 then BitVec.twoPow k (k - 1) else 0) ∨
    (v = 0 ∧ floatValue E M (x &&& ~~~BitVec.twoPow k (k - 1)) = .fin 0 ∧ x &&& BitVec.twoPow k (k - 1) = BitVec.twoPow k (k - 1)) := by
  have hk := (signMask_toNat h).2
  have hb : ∀ i, (h : i < k) → (x &&& ~~~BitVec.twoPow k (k - 1))[i] = (x[i] && !decide (i = k - 1)) := by
    intro i hi
    rw [BitVec.getElem_and, BitVec.getElem_not, BitVec.getElem_twoPow]
  have hneg : neg E M x = x.getLsbD (k - 1) := by
    unfold neg; rw [show E + M = k - 1 by omega]; rfl
  have hval : floatValue E M x = .fin (if neg E M x then -(smag M (mag E M x) : Int) else (smag M (mag E M x) : Int)) := by
    refine value_of_mag x ?_
    rw [floatValue_eq] at hx
    by_contra hc
    rcases Nat.lt_or_eq_of_le (Nat.le_of_not_lt hc) with h1 | h1
    · rw [if_pos h1] at hx; cases hx
    · rw [if_neg (by omega), if_pos h1.symm] at hx
      split at hx <;> cases hx
  have hv := Value.fin.inj (hx.symm.trans hval)
  rw [BitVec.and_twoPow]
  by_cases hn : x.getLsbD (k - 1) = true
  · have he : x &&& ~~~BitVec.twoPow k (k - 1) = flipSign x := by
      unfold flipSign
      ext i hi
      rw [hb i hi, BitVec.getElem_xor, BitVec.getElem_twoPow]
      by_cases hi' : i = k - 1
      · subst hi'
        rw [BitVec.getLsbD_eq_getElem hi] at hn
        simp [hn]
      · simp [hi']
    rw [hneg, if_pos hn] at hv
    have hf : floatValue E M (flipSign x) = .fin (-v) := by rw [flipSign_value h, hx]; rfl
    rw [he, if_pos hn, hf]
    by_cases h0 : v = 0
    · right; exact ⟨h0, by rw [h0]; rfl, rfl⟩
    · left
      refine ⟨by congr 1; omega, ?_⟩
      rw [if_pos (by omega)]
  · have he : x &&& ~~~BitVec.twoPow k (k - 1) = x := by
      ext i hi
      rw [hb i hi]
      by_cases hi' : i = k - 1
      · subst hi'
        rw [BitVec.getLsbD_eq_getElem hi] at hn
        simp [Bool.not_eq_true] at hn
        simp [hn]
      · simp [hi']
    rw [hneg, if_neg hn] at hv
    left
    rw [he, if_neg hn, hx, if_neg (by omega)]
    exact ⟨by congr 1; omega, rfl⟩

/-- The lanes from their parts: `q` is the converted quotient, `r` the reduced argument, and the two polynomials are within `δ`
of cos and sin of `r`. -/
theorem lanes_close {F : FloatUnit} {E M k : Nat} (h : Fmt E M k) (hk : 3 ≤ k) (hF : IeeeArith F E M k) (C : MathC k) (hm : C.signMask = BitVec.twoPow k (k - 1))
    (x0 : BitVec k) (v : Int) (hx : floatValue E M x0 = .fin v) (q : Nat) (hq : q + 1 < 2 ^ k)
    (hto : C.toInt (F.mul k (x0 &&& ~~~C.signMask) C.fopi) = BitVec.ofNat k q) {δ : ℝ}
    (hpoly : ∀ x, floatValue E M x = .fin v.natAbs → ∀ mask : Bool,
      Close E M (sincosPoly F C x (C.ofInt (BitVec.ofNat k (2 * ((q + 1) / 2)))) (maskOf mask))
        (if mask then Real.sin ((v.natAbs : ℝ) / floatUnit E M - ((q + 1) / 2 : Nat) * (Real.pi / 2))
          else Real.cos ((v.natAbs : ℝ) / floatUnit E M - ((q + 1) / 2 : Nat) * (Real.pi / 2))) δ) :
    Close E M (sinLane F C x0) (Real.sin ((v : ℝ) / floatUnit E M)) δ ∧ Close E M (cosLane F C x0) (Real.cos ((v : ℝ) / floatUnit E M)) δ := by
  have hxa := abs_value h x0 v hx
  have h8 := two_pow_mod8 hk
  have hx' : floatValue E M (x0 &&& ~~~C.signMask) = .fin v.natAbs := by
    rw [hm]
    rcases hxa with h1 | ⟨h1, h2, _⟩
    · exact h1.1
    · rw [h2, h1]; rfl
  have hp := hpoly _ hx'
  generalize hmm : (q + 1) / 2 = m at *
  generalize hr : (v.natAbs : ℝ) / floatUnit E M - (m : Nat) * (Real.pi / 2) = r at *
  have ha : (v.natAbs : ℝ) / floatUnit E M = r + m * (Real.pi / 2) := by rw [← hr]; ring
  have hlt : 2 * m < 2 ^ k := by omega
  have hjn : (BitVec.ofNat k (2 * m)).toNat = 2 * m := by rw [BitVec.toNat_ofNat, Nat.mod_eq_of_lt hlt]
  have hU := unitR_pos E M
  constructor
  · unfold sinLane
    simp only
    rw [hto, even_up hk q hq, hmm, and_two hk, and_four hk, hjn]
    have hs := hp (decide (2 * m / 2 % 2 = 0))
    have e1 : 2 * m / 2 = m := by omega
    have e2 : 2 * m / 4 = m / 2 := by omega
    rw [e1] at hs ⊢
    rw [e2]
    generalize sincosPoly F C _ _ _ = y at hs
    have hsin : Close E M (y ^^^ (if m / 2 % 2 = 1 then BitVec.twoPow k (k - 1) else 0)) (Real.sin ((v.natAbs : ℝ) / floatUnit E M)) δ := by
      rw [ha, sin_quadrant]
      by_cases hc : m / 2 % 2 = 1
      · rw [if_pos hc, if_pos hc, neg_one_mul]
        exact flip_close h (by simpa using hs)
      · rw [if_neg hc, if_neg hc]
        simpa using hs
    rw [hm]
    rcases hxa with ⟨h1, h2⟩ | ⟨h1, h2, h3⟩
    · rw [h2]
      by_cases hneg : v < 0
      · rw [if_pos hneg, BitVec.xor_comm (BitVec.twoPow k (k - 1)), ← BitVec.xor_assoc]
        have := flip_close h hsin
        rw [← Real.sin_neg, show -((v.natAbs : ℝ) / (floatUnit E M : ℝ)) = (v : ℝ) / floatUnit E M by
          rw [Nat.cast_natAbs, abs_of_neg hneg]; push_cast; ring] at this
        exact this
      · rw [if_neg hneg, show (v : ℝ) = (v.natAbs : ℝ) by rw [Nat.cast_natAbs, abs_of_nonneg (by omega)]]
        simpa using hsin
    · rw [h3, BitVec.xor_comm (BitVec.twoPow k (k - 1)), ← BitVec.xor_assoc]
      have := flip_close h hsin
      rw [h1] at this ⊢
      simpa using this
  · unfold cosLane
    simp only
    rw [hto, even_up hk q hq, hmm, and_two hk, and_four hk]
    have hj2 : (BitVec.ofNat k (2 * m) - 2).toNat % 8 = (2 * m + 6) % 8 := by
      rw [BitVec.toNat_sub, hjn]
      have h2 : (2 : BitVec k).toNat = 2 := by
        show 2 % 2 ^ k = 2
        exact Nat.mod_eq_of_lt (Nat.lt_of_lt_of_le (by decide : 2 < 2 ^ 3) (Nat.pow_le_pow_right (by decide) hk))
      rw [h2]
      have h9 : 8 ≤ 2 ^ k := Nat.pow_le_pow_right (by decide : 0 < 2) hk
      generalize 2 ^ k = P at *
      have : (P - 2 + 2 * m) % P % 8 = (P - 2 + 2 * m) % 8 := Nat.mod_mod_of_dvd _ (Nat.dvd_of_mod_eq_zero h8)
      omega
    have hnot : (~~~(BitVec.ofNat k (2 * m) - 2)).toNat % 8 = 7 - (2 * m + 6) % 8 := by
      rw [BitVec.toNat_not]
      have := (BitVec.ofNat k (2 * m) - 2).isLt
      generalize (BitVec.ofNat k (2 * m) - 2).toNat = y at *
      generalize 2 ^ k = P at *
      omega
    generalize hb1 : (BitVec.ofNat k (2 * m) - 2).toNat = y1 at *
    generalize (~~~(BitVec.ofNat k (2 * m) - 2)).toNat = y2 at *
    have d1 : (y1 / 2 % 2 = 0) ↔ (m % 2 = 1) := by omega
    have d2 : (y2 / 4 % 2 = 1) ↔ ((m + 1) / 2 % 2 = 1) := by omega
    have hs := hp (decide (y1 / 2 % 2 = 0))
    generalize sincosPoly F C _ _ _ = y at hs
    have hcosv : Real.cos ((v : ℝ) / floatUnit E M) = Real.cos ((v.natAbs : ℝ) / floatUnit E M) := by
      rw [Nat.cast_natAbs]
      push_cast
      rw [← Real.cos_abs, abs_div, abs_of_pos hU]
    rw [hcosv, ha, cos_quadrant]
    have hs' : Close E M y (if m % 2 = 0 then Real.cos r else Real.sin r) δ := by
      by_cases hc : m % 2 = 0
      · rw [if_pos hc]
        rw [if_neg (by simp [d1, hc])] at hs
        exact hs
      · rw [if_neg hc]
        rw [if_pos (by simp [d1]; omega)] at hs
        exact hs
    by_cases hc : (m + 1) / 2 % 2 = 1
    · rw [if_pos hc, if_pos (d2.mpr hc), neg_one_mul]
      exact flip_close h hs'
    · rw [if_neg hc, if_neg (fun h => hc (d2.mp h))]
      simpa using hs'

end Pnumpy.Props
