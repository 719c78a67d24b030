import Verif.Model.FloatOps
import Verif.Spec.FloatOps
import Verif.Proofs.Ieee
import Mathlib.Tactic.Ring
import Mathlib.Tactic.Linarith
/-
Property theorems C43 (minimum/maximum), C44 (negative/absolute/sign) and C45 (rint).
Stated for both float types: `(E, M, k) = (8, 23, 32)` and `(11, 52, 64)`.
-/
namespace Pnumpy.Props
open Pnumpy.Spec Pnumpy.Ieee Pnumpy.FloatOps

/-- The two float formats. -/
inductive Fmt : Nat → Nat → Nat → Prop where
  | f32 : Fmt 8 23 32
  | f64 : Fmt 11 52 64

theorem Fmt.pos {E M k : Nat} (h : Fmt E M k) : 0 < E := by cases h <;> decide

theorem vlt_nan_left (b : Value) : ¬ Value.lt .nan b := by cases b <;> simp [Value.lt]
theorem vlt_nan_right (a : Value) : ¬ Value.lt a .nan := by cases a <;> simp [Value.lt]
theorem vlt_irrefl (a : Value) : ¬ a.lt a := by cases a <;> simp [Value.lt]
theorem vlt_asymm {a b : Value} (h : a.lt b) : ¬ b.lt a := by
  cases a <;> cases b <;> simp_all [Value.lt] <;> omega

/-! ### C43 -/

/-- **C43 (part)**: when the first operand is not NaN the result is the documented minimum. Missing: a
NaN in the first operand, see `C43_minimum_violated`. -/
theorem C43_minimum_partial {E M k : Nat} (h : Fmt E M k) (x y : BitVec k) (hx : floatValue E M x ≠ .nan) :
    IsMinimum (floatValue E M x) (floatValue E M y) (floatValue E M (fmin E M x y)) := by
  have hf := flt_iff E M h.pos x y
  unfold IsMinimum fmin
  by_cases hl : flt E M x y = true
  · rw [if_pos hl]
    have hlt := hf.mp hl
    have hy : floatValue E M y ≠ .nan := fun e => vlt_nan_right _ (e ▸ hlt)
    rw [if_neg (by simp [hx, hy])]
    exact ⟨.inl rfl, vlt_irrefl _, vlt_asymm hlt⟩
  · rw [if_neg hl]
    split
    · next hc => exact hc.resolve_left hx
    · exact ⟨.inr rfl, fun hc => hl (hf.mpr hc), vlt_irrefl _⟩

/-- Case: minimum of -1.5 and NaN (float32). -/
example := C43_minimum_partial .f32 0xbfc00000#32 0x7fc00000#32 (by decide)

/-- **C43 (part)** for the maximum. -/
theorem C43_maximum_partial {E M k : Nat} (h : Fmt E M k) (x y : BitVec k) (hx : floatValue E M x ≠ .nan) :
    IsMaximum (floatValue E M x) (floatValue E M y) (floatValue E M (fmax E M x y)) := by
  have hf := flt_iff E M h.pos y x
  unfold IsMaximum fmax
  by_cases hl : flt E M y x = true
  · rw [if_pos hl]
    have hlt := hf.mp hl
    have hy : floatValue E M y ≠ .nan := fun e => vlt_nan_left _ (e ▸ hlt)
    rw [if_neg (by simp [hx, hy])]
    exact ⟨.inl rfl, vlt_irrefl _, vlt_asymm hlt⟩
  · rw [if_neg hl]
    split
    · next hc => exact hc.resolve_left hx
    · exact ⟨.inr rfl, fun hc => hl (hf.mpr hc), vlt_irrefl _⟩

/-- **C43 violated**: with NaN as first and any number as second operand, the minimum and the maximum
are that number, not NaN. -/
theorem C43_minimum_violated {E M k : Nat} (h : Fmt E M k) (x y : BitVec k)
    (hx : floatValue E M x = .nan) (hy : floatValue E M y ≠ .nan) :
    (fmin E M x y = y ∧ ¬ IsMinimum (floatValue E M x) (floatValue E M y) (floatValue E M (fmin E M x y))) ∧
    (fmax E M x y = y ∧ ¬ IsMaximum (floatValue E M x) (floatValue E M y) (floatValue E M (fmax E M x y))) := by
  have h1 : fmin E M x y = y := by
    unfold fmin
    rw [if_neg]
    intro hc
    exact vlt_nan_left _ (hx ▸ (flt_iff E M h.pos x y).mp hc)
  have h2 : fmax E M x y = y := by
    unfold fmax
    rw [if_neg]
    intro hc
    exact vlt_nan_right _ (hx ▸ (flt_iff E M h.pos y x).mp hc)
  refine ⟨⟨h1, ?_⟩, ⟨h2, ?_⟩⟩
  · rw [h1]; unfold IsMinimum; rw [if_pos (.inl hx)]; exact hy
  · rw [h2]; unfold IsMaximum; rw [if_pos (.inl hx)]; exact hy

/-- Non-vacuity of the three theorems: a float NaN, -1.5 and 2.0. -/
example : floatValue 8 23 0x7fc00000#32 = .nan ∧ floatValue 8 23 0xbfc00000#32 ≠ .nan ∧
    fmin 8 23 0xbfc00000#32 0x40000000#32 = 0xbfc00000#32 := by decide

/-! ### C44 -/

/-- Sign and magnitude after the operations. -/
theorem signMask_toNat {E M k : Nat} (h : Fmt E M k) : (signMask E M k).toNat = 2 ^ (E + M) ∧ k = E + M + 1 := by
  cases h <;> decide

theorem mag_lt {E M k : Nat} (x : BitVec k) : mag E M x < 2 ^ (E + M) := Nat.mod_lt _ (Nat.two_pow_pos _)

theorem toNat_split {E M k : Nat} (h : Fmt E M k) (x : BitVec k) :
    x.toNat = 2 ^ (E + M) * (neg E M x).toNat + mag E M x := by
  have hk := (signMask_toNat h).2
  subst hk
  have hlt := x.isLt
  have h1 := Nat.div_add_mod x.toNat (2 ^ (E + M))
  have h2 : x.toNat / 2 ^ (E + M) < 2 := by
    rw [Nat.div_lt_iff_lt_mul (Nat.two_pow_pos _)]; rw [Nat.pow_succ] at hlt; omega
  have h3 : (neg E M x).toNat = x.toNat / 2 ^ (E + M) := by
    unfold neg; rw [Nat.testBit_eq_decide_div_mod_eq]
    rcases Nat.lt_succ_iff_lt_or_eq.mp h2 with h | h
    · rw [Nat.lt_one_iff.mp h]; rfl
    · rw [h]; rfl
  rw [h3]; unfold mag; omega

theorem eq_of_mag_neg {E M k : Nat} (h : Fmt E M k) {x y : BitVec k} (hm : mag E M x = mag E M y)
    (hn : neg E M x = neg E M y) : x = y := by
  apply BitVec.eq_of_toNat_eq
  rw [toNat_split h x, toNat_split h y, hm, hn]

theorem xor_sign {E M k : Nat} (h : Fmt E M k) (x : BitVec k) :
    mag E M (x ^^^ signMask E M k) = mag E M x ∧ neg E M (x ^^^ signMask E M k) = !neg E M x := by
  obtain ⟨hs, hk⟩ := signMask_toNat h
  unfold mag neg
  rw [BitVec.toNat_xor, hs]
  constructor
  · apply Nat.eq_of_testBit_eq
    intro i
    rw [Nat.testBit_mod_two_pow, Nat.testBit_mod_two_pow, Nat.testBit_xor, Nat.testBit_two_pow]
    by_cases hi : i < E + M
    · simp [hi, show ¬ (E + M = i) by omega]
    · simp [hi]
  · rw [Nat.testBit_xor, Nat.testBit_two_pow]; simp

theorem and_abs {E M k : Nat} (h : Fmt E M k) (x : BitVec k) :
    mag E M (absVec E M x) = mag E M x ∧ neg E M (absVec E M x) = false := by
  have ha : (BitVec.ofNat k (2 ^ (E + M) - 1)).toNat = 2 ^ (E + M) - 1 := by cases h <;> decide
  unfold absVec mag neg
  rw [BitVec.toNat_and, ha, Nat.and_two_pow_sub_one_eq_mod, Nat.mod_mod]
  exact ⟨rfl, Nat.testBit_lt_two_pow (Nat.mod_lt _ (Nat.two_pow_pos _))⟩

theorem value_neg (E M : Nat) {k : Nat} (x y : BitVec k) (hm : mag E M y = mag E M x)
    (hn : neg E M y = !neg E M x) : floatValue E M y = (floatValue E M x).neg := by
  rw [floatValue_eq, floatValue_eq, hm, hn]
  by_cases h1 : infMag E M < mag E M x
  · rw [if_pos h1, if_pos h1]; rfl
  · rw [if_neg h1, if_neg h1]
    by_cases h2 : mag E M x = infMag E M
    · rw [if_pos h2, if_pos h2]; cases neg E M x <;> rfl
    · rw [if_neg h2, if_neg h2]; cases neg E M x <;> simp [Value.neg]

theorem value_abs (E M : Nat) {k : Nat} (x y : BitVec k) (hm : mag E M y = mag E M x)
    (hn : neg E M y = false) : floatValue E M y = (floatValue E M x).abs := by
  rw [floatValue_eq, floatValue_eq, hm, hn]
  by_cases h1 : infMag E M < mag E M x
  · rw [if_pos h1, if_pos h1]; rfl
  · rw [if_neg h1, if_neg h1]
    by_cases h2 : mag E M x = infMag E M
    · rw [if_pos h2, if_pos h2]; cases neg E M x <;> rfl
    · rw [if_neg h2, if_neg h2]; cases neg E M x <;> simp [Value.abs]

theorem value_zero {E M k : Nat} (hE : 0 < E) (x : BitVec k) (h0 : mag E M x = 0) :
    floatValue E M x = .fin 0 := by
  have := infMag_pos M hE
  rw [floatValue_eq, if_neg (by omega), if_neg (by omega), h0, smag_zero]
  cases neg E M x <;> rfl

theorem mag_zero (E M k : Nat) : mag E M (0 : BitVec k) = 0 := by unfold mag; simp

theorem negVec_nan {E M k : Nat} (h : Fmt E M k) (x : BitVec k) (hn : isNaN E M x = true) :
    isNaN E M (negVec E M x) = true := by
  unfold negVec
  rw [if_pos hn]
  unfold isNaN at hn ⊢
  simp only [decide_eq_true_eq] at hn ⊢
  have hq : (BitVec.ofNat k (2 ^ (M - 1))).toNat = 2 ^ (M - 1) := by cases h <;> decide
  have hlt : 2 ^ (M - 1) < 2 ^ (E + M) := by cases h <;> decide
  refine Nat.lt_of_lt_of_le hn ?_
  unfold mag
  rw [BitVec.toNat_or, hq, Nat.or_mod_two_pow, Nat.mod_eq_of_lt hlt]
  exact Nat.left_le_or

/-- **C44 (part)**: in vector part and tail the numeric value of np.negative is the negated value and
that of np.absolute the absolute value, for every pattern. Missing: the sign of zero (numeric value 0 in
both cases), see `C44_sign_of_zero_violated`. -/
theorem C44_values_partial {E M k : Nat} (h : Fmt E M k) (x : BitVec k) :
    floatValue E M (negTail E M x) = (floatValue E M x).neg ∧
    floatValue E M (negVec E M x) = (floatValue E M x).neg ∧
    floatValue E M (absTail E M x) = (floatValue E M x).abs ∧
    floatValue E M (absVec E M x) = (floatValue E M x).abs := by
  have ht : floatValue E M (negTail E M x) = (floatValue E M x).neg := value_neg E M _ _ (xor_sign h x).1 (xor_sign h x).2
  refine ⟨ht, ?_, ?_, value_abs E M _ _ (and_abs h x).1 (and_abs h x).2⟩
  · by_cases hn : isNaN E M x = true
    · rw [(isNaN_iff E M _).mp (negVec_nan h x hn), (isNaN_iff E M _).mp hn]; rfl
    · unfold negVec
      rw [if_neg hn]
      by_cases hz : mag E M x = 0
      · rw [if_pos hz, value_zero h.pos _ (mag_zero E M k), value_zero h.pos _ hz]; rfl
      · rw [if_neg hz]; exact ht
  · have hf := flt_iff E M h.pos x (0 : BitVec k)
    rw [value_zero h.pos _ (mag_zero E M k)] at hf
    unfold absTail
    by_cases hl : flt E M x 0 = true
    · rw [if_pos hl, ht]
      have := hf.mp hl
      cases hv : floatValue E M x <;> rw [hv] at this <;> simp_all [Value.lt, Value.neg, Value.abs]
      rw [abs_of_neg (by assumption)]
    · rw [if_neg hl]
      have : ¬ Value.lt (floatValue E M x) (.fin 0) := fun hc => hl (hf.mpr hc)
      cases hv : floatValue E M x <;> rw [hv] at this <;> simp_all [Value.lt, Value.abs]
      exact (abs_of_nonneg (by assumption)).symm

/-- Case: float64. -/
example := C44_values_partial .f64

/-- Vector part and tail give the same bits for every pattern that is neither zero nor NaN. -/
theorem C44_same_bits_partial {E M k : Nat} (h : Fmt E M k) (x : BitVec k) (hz : floatValue E M x ≠ .fin 0)
    (hn : floatValue E M x ≠ .nan) : negVec E M x = negTail E M x ∧ absVec E M x = absTail E M x := by
  have hn' : ¬ isNaN E M x = true := fun hc => hn ((isNaN_iff E M x).mp hc)
  have hz' : mag E M x ≠ 0 := fun hc => hz (value_zero h.pos x hc)
  refine ⟨?_, ?_⟩
  · unfold negVec negTail; rw [if_neg hn', if_neg hz']
  · have hf := flt_iff E M h.pos x (0 : BitVec k)
    rw [value_zero h.pos _ (mag_zero E M k)] at hf
    have hneg : flt E M x 0 = neg E M x := by
      rw [Bool.eq_iff_iff, hf, floatValue_eq]
      have hm : 0 < smag M (mag E M x) := by
        have := smag_mono M (show 0 < mag E M x by omega); rw [smag_zero] at this; exact this
      have h1 : ¬ infMag E M < mag E M x := by
        intro hc; apply hn'; unfold isNaN; exact decide_eq_true hc
      rw [if_neg h1]
      by_cases h2 : mag E M x = infMag E M
      · rw [if_pos h2]; cases neg E M x <;> simp [Value.lt]
      · rw [if_neg h2]; cases neg E M x <;> simp [Value.lt] <;> omega
    apply eq_of_mag_neg h
    · rw [(and_abs h x).1]
      unfold absTail
      split
      · exact (xor_sign h x).1.symm
      · rfl
    · rw [(and_abs h x).2]
      unfold absTail
      rw [hneg]
      cases hb : neg E M x
      · exact hb.symm
      · have := (xor_sign h x).2
        rw [hb] at this
        exact this.symm

/-- Case: -1.5 in float32. -/
example := C44_same_bits_partial .f32 0xbfc00000#32 (by decide) (by decide)

/-- **C44 violated**: the vector part negates `+0.0` to `+0.0`, the tail to `-0.0`; the vector part makes
`|-0.0| = +0.0`, the tail leaves `-0.0`. So the sign of a zero depends on its position in the array. -/
theorem C44_sign_of_zero_violated :
    negVec 8 23 (0 : BitVec 32) = 0 ∧ negTail 8 23 (0 : BitVec 32) = 0x80000000 ∧
    absVec 8 23 (0x80000000 : BitVec 32) = 0 ∧ absTail 8 23 (0x80000000 : BitVec 32) = 0x80000000 ∧
    negVec 11 52 (0 : BitVec 64) ≠ negTail 11 52 (0 : BitVec 64) ∧
    absVec 11 52 (0x8000000000000000 : BitVec 64) ≠ absTail 11 52 (0x8000000000000000 : BitVec 64) := by
  decide

/-- np.sign of a float has the sign of the value: 1.0, -1.0, 0, or the NaN itself. -/
theorem C44_sign {E M k : Nat} (h : Fmt E M k) (x : BitVec k) :
    (floatValue E M x = .nan → floatSign E M x = x) ∧
    (Value.lt (.fin 0) (floatValue E M x) → floatSign E M x = fone E M k) ∧
    (Value.lt (floatValue E M x) (.fin 0) → floatSign E M x = negTail E M (fone E M k)) ∧
    (floatValue E M x = .fin 0 → floatSign E M x = 0) := by
  have h0 := value_zero h.pos (0 : BitVec k) (mag_zero E M k)
  have h1 := flt_iff E M h.pos (0 : BitVec k) x
  have h2 := flt_iff E M h.pos x (0 : BitVec k)
  have h3 := feq_iff E M h.pos x x
  rw [h0] at h1 h2
  unfold floatSign
  refine ⟨fun hv => ?_, fun hv => ?_, fun hv => ?_, fun hv => ?_⟩
  · rw [hv] at h1 h2 h3
    rw [if_neg (fun hc => vlt_nan_right _ (h1.mp hc)), if_neg (fun hc => vlt_nan_left _ (h2.mp hc)),
      if_neg (fun hc => by have := h3.mp hc; simp [Value.eq] at this)]
  · rw [if_pos (h1.mpr hv)]
  · rw [if_neg (fun hc => vlt_asymm hv (h1.mp hc)), if_pos (h2.mpr hv)]
  · rw [hv] at h1 h2 h3
    rw [if_neg (fun hc => vlt_irrefl _ (h1.mp hc)), if_neg (fun hc => vlt_irrefl _ (h2.mp hc)),
      if_pos (h3.mpr rfl)]

/-- 1.0 is 1. -/
example : floatValue 8 23 (fone 8 23 32) = .fin (2 ^ 149) := by decide

/-! ### C45 -/

/-- **C45 (part)**: np.rint of a double is the nearest integer whenever there is only one. Missing: exactly
half-way values, see `C45_rint_violated`. -/
theorem C45_rint_partial (unit v : Int) (hu : 0 < unit) (hodd : ∀ n : Int, 2 * (v - unit * n) ≠ unit) :
    ∃ w, cRound unit (.fin v) = .fin w ∧ IsRint unit v w := by
  refine ⟨_, rfl, ?_⟩
  by_cases hv : v < 0
  · rw [if_pos hv]
    generalize hq : (2 * -v + unit) / (2 * unit) = q
    have hd := Int.mul_ediv_add_emod (2 * -v + unit) (2 * unit)
    have hr := Int.emod_nonneg (2 * -v + unit) (show 2 * unit ≠ 0 by omega)
    have hl := Int.emod_lt_of_pos (2 * -v + unit) (show 0 < 2 * unit by omega)
    rw [hq] at hd
    have e : 2 * unit * q = 2 * (unit * q) := by ring
    have e' : unit * -q = -(unit * q) := by ring
    have e'' : unit * (-q - 1) = -(unit * q) - unit := by ring
    have h1 := hodd (-q)
    have h2 := hodd (-q - 1)
    rw [e'] at h1
    rw [e''] at h2
    refine ⟨-q, e'.symm, ?_, ?_, ?_⟩ <;> omega
  · rw [if_neg hv]
    generalize hq : (2 * v + unit) / (2 * unit) = q
    have hd := Int.mul_ediv_add_emod (2 * v + unit) (2 * unit)
    have hr := Int.emod_nonneg (2 * v + unit) (show 2 * unit ≠ 0 by omega)
    have hl := Int.emod_lt_of_pos (2 * v + unit) (show 0 < 2 * unit by omega)
    rw [hq] at hd
    have e : 2 * unit * q = 2 * (unit * q) := by ring
    have e'' : unit * (q - 1) = unit * q - unit := by ring
    have h1 := hodd q
    have h2 := hodd (q - 1)
    rw [e''] at h2
    refine ⟨q, rfl, ?_, ?_, ?_⟩ <;> omega

/-- **C45 violated**: np.rint(0.5) is 1.0 (numpy: 0.0); more generally every positive half-way value above
an even integer `2m` is rounded to `2m+1`. `unit` is the scale of `floatValue` (2^1074 for double). -/
theorem C45_rint_violated (unit m : Int) (hu : 0 < unit) (hm : 0 ≤ m) :
    let v := 2 * unit * (2 * m) + unit
    cRound (2 * unit) (.fin v) = .fin (2 * unit * (2 * m + 1)) ∧ ¬ IsRint (2 * unit) v (2 * unit * (2 * m + 1)) := by
  intro v
  have hvv : v = 2 * unit * (2 * m) + unit := rfl
  have hnn : 0 ≤ 2 * unit * (2 * m) := by positivity
  constructor
  · unfold cRound
    simp only [if_neg (show ¬ v < 0 by omega)]
    have : (2 * v + 2 * unit) / (2 * (2 * unit)) = 2 * m + 1 := by
      rw [show 2 * v + 2 * unit = (2 * m + 1) * (2 * (2 * unit)) by rw [hvv]; ring]
      exact Int.mul_ediv_cancel _ (by omega)
    rw [this]
  · rintro ⟨n, hn, h1, h2, h3⟩
    have hn' : n = 2 * m + 1 := by
      have := Int.eq_of_mul_eq_mul_left (show 2 * unit ≠ 0 by omega) hn
      exact this.symm
    have : 2 * (v - 2 * unit * (2 * m + 1)) = -(2 * unit) := by rw [hvv]; ring
    have := h3 (.inr this)
    omega

/-- 0.5, 1.0 as doubles have the values used above (`2*unit = 2^1074`, `m = 0`). -/
example : floatValue 11 52 0x3fe0000000000000#64 = .fin (2 ^ 1073) ∧
    floatValue 11 52 0x3ff0000000000000#64 = .fin (2 ^ 1074) := by decide +kernel

end Pnumpy.Props
