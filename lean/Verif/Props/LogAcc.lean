import Verif.Proofs.LogChain
/-
Property theorem C91: accuracy of the vector version of the float32 log.
-/
namespace Pnumpy.Props
open Pnumpy.Spec Pnumpy.Elem Pnumpy.Dispatch Pnumpy.Ieee Pnumpy.FloatOps Pnumpy.Trig Pnumpy.LogPoly

/-- The pattern with biased exponent `E` and fraction `f`. -/
def pat (E f : Nat) : BitVec 32 := BitVec.ofNat 32 (E * 2 ^ 23 + f)

theorem pat_toNat {E f : Nat} (hE : E ≤ 255) (hf : f < 2 ^ 23) : (pat E f).toNat = E * 2 ^ 23 + f := by
  rw [pat, BitVec.toNat_ofNat]; omega

theorem pat_value {E f : Nat} (hE1 : 1 ≤ E) (hE : E ≤ 254) (hf : f < 2 ^ 23) : floatValue 8 23 (pat E f) = .fin (((2 ^ 23 + f : Nat) : Int) * 2 ^ (E - 1)) := by
  have ht := pat_toNat (E := E) (f := f) (by omega) hf
  unfold floatValue
  rw [ht]
  have e1 : (E * 2 ^ 23 + f) % 2 ^ 23 = f := by omega
  have e2 : (E * 2 ^ 23 + f) / 2 ^ 23 % 2 ^ 8 = E := by omega
  have e3 : (E * 2 ^ 23 + f) / 2 ^ (8 + 23) % 2 = 0 := by omega
  simp only [e1, e2, e3]
  rw [if_neg (by omega), if_neg (by decide), if_neg (by omega)]
  refine congrArg Value.fin ?_
  push_cast; ring

/-- Positive normal floats. -/
theorem pat_of_value {x : BitVec 32} {v : Int} (hx : floatValue 8 23 x = .fin v) (hv : 2 ^ 23 ≤ v) : ∃ E f, 1 ≤ E ∧ E ≤ 254 ∧ f < 2 ^ 23 ∧ x = pat E f := by
  have hlt : x.toNat < 2 ^ 32 := x.isLt
  refine ⟨x.toNat / 2 ^ 23 % 2 ^ 8, x.toNat % 2 ^ 23, ?_⟩
  unfold floatValue at hx
  simp only at hx
  split at hx
  · split at hx
    · cases hx
    · split at hx <;> cases hx
  · rename_i h1
    have hs : ¬ (x.toNat / 2 ^ (8 + 23) % 2 = 1) := by
      intro hs
      rw [if_pos hs] at hx
      have := Value.fin.inj hx
      have h0 : (0 : Int) ≤ ((if x.toNat / 2 ^ 23 % 2 ^ 8 = 0 then x.toNat % 2 ^ 23 else (2 ^ 23 + x.toNat % 2 ^ 23) * 2 ^ (x.toNat / 2 ^ 23 % 2 ^ 8 - 1) : Nat) : Int) := Int.natCast_nonneg _
      omega
    have hE0 : x.toNat / 2 ^ 23 % 2 ^ 8 ≠ 0 := by
      intro h0
      rw [if_neg hs, if_pos h0] at hx
      have := Value.fin.inj hx
      omega
    refine ⟨by omega, by omega, by omega, ?_⟩
    apply BitVec.eq_of_toNat_eq
    rw [pat_toNat (by omega) (by omega)]
    omega

theorem pat_append {E f : Nat} (hE : E ≤ 255) (hf : f < 2 ^ 23) : pat E f = (BitVec.ofNat 9 E ++ BitVec.ofNat 23 f : BitVec 32) := by
  apply BitVec.eq_of_toNat_eq
  rw [pat_toNat hE hf]
  show _ = (BitVec.ofNat 9 E ++ BitVec.ofNat 23 f).toNat
  rw [BitVec.toNat_append, BitVec.toNat_ofNat, BitVec.toNat_ofNat, Nat.mod_eq_of_lt (by omega), Nat.mod_eq_of_lt hf, ← Nat.shiftLeft_add_eq_or_of_lt hf, Nat.shiftLeft_eq]

/-- The mantissa scaled to [1/2, 1). -/
theorem pat_mant {E f : Nat} (hE : E ≤ 255) (hf : f < 2 ^ 23) : (pat E f &&& 0x807fffff#32) ||| 0x3f000000#32 = pat 126 f := by
  rw [pat_append hE hf, pat_append (by omega) hf]
  have m1 : (0x807fffff#32 : BitVec 32) = (0x100#9 ++ BitVec.allOnes 23 : BitVec 32) := by decide
  have m2 : (0x3f000000#32 : BitVec 32) = (126#9 ++ 0#23 : BitVec 32) := by decide
  rw [m1, m2]
  have h9 : ∀ e : Fin 256, (BitVec.ofNat 9 e.val &&& 0x100#9) ||| 126#9 = 126#9 := by decide +kernel
  have := h9 ⟨E, by omega⟩
  simp only at this
  show ((BitVec.ofNat 9 E ++ BitVec.ofNat 23 f) &&& (0x100#9 ++ BitVec.allOnes 23)) ||| (126#9 ++ 0#23) = (126#9 ++ BitVec.ofNat 23 f)
  rw [BitVec.and_append, BitVec.or_append, this, BitVec.and_allOnes, BitVec.or_zero]

theorem pat_exp {E f : Nat} (hE : E ≤ 254) (hf : f < 2 ^ 23) : (pat E f >>> 23 - 0x7f#32).toInt = (E : Int) - 127 := by
  have h : pat E f >>> 23 = BitVec.ofNat 32 E := by
    apply BitVec.eq_of_toNat_eq
    rw [BitVec.toNat_ushiftRight, pat_toNat (by omega) hf, Nat.shiftRight_eq_div_pow, BitVec.toNat_ofNat]
    omega
  rw [h]
  have h2 : ∀ e : Fin 255, (BitVec.ofNat 32 e.val - 0x7f#32).toInt = (e.val : Int) - 127 := by decide +kernel
  exact h2 ⟨E, by omega⟩

/-- The kernel after the exponent and mantissa are separated (`c`: the mantissa is below sqrt(1/2)). -/
theorem logLane_pat {F : FloatUnit} {cv : Cvt} {E f : Nat} (hE1 : 1 ≤ E) (hE : E ≤ 254) (hf : f < 2 ^ 23) (b : Bool) (hb : b = decide (2 ^ 23 + f < 11863283)) :
    logLane F (ps cv.tt cv.epi) (pat E f) =
      let x := F.add 32 (F.sub 32 (pat 126 f) 0x3f800000#32) (pat 126 f &&& maskOf b)
      let e := F.sub 32 (F.add 32 (cv.epi (pat E f >>> 23 - 0x7f#32)) 0x3f800000#32) (0x3f800000#32 &&& maskOf b)
      let z := F.mul 32 x x
      let y := F.mul 32 (F.mul 32 (poly F 32 x (ps cv.tt cv.epi).logP) x) z
      let y := F.add 32 y (F.mul 32 e 0xb95e8083#32)
      let y := F.sub 32 y (F.mul 32 z 0x3f000000#32)
      F.add 32 (F.add 32 x y) (F.mul 32 e 0x3f318000#32) := by
  have hv := pat_value hE1 hE hf
  have hpos : (2 : Int) ^ 23 ≤ ((2 ^ 23 + f : Nat) : Int) * 2 ^ (E - 1) := by
    have h1 : (1 : Int) ≤ 2 ^ (E - 1) := by exact_mod_cast Nat.one_le_two_pow
    have h2 : (0 : Int) ≤ ((2 ^ 23 + f : Nat) : Int) := Int.natCast_nonneg _
    have := Int.mul_le_mul_of_nonneg_left h1 h2
    push_cast at this ⊢
    omega
  have hmin : floatValue 8 23 0x00800000#32 = .fin (2 ^ 23) := val_ps (by decide +kernel) (by decide +kernel)
  have i1 : fle 8 23 (pat E f) 0 = false := by
    rw [Bool.eq_false_iff, Ne, fle_iff 8 23 (by decide), hv, value_zeroPattern Fmt.f32]
    rintro (h | h)
    · have : ((2 ^ 23 + f : Nat) : Int) * 2 ^ (E - 1) < 0 := h
      omega
    · have : ((2 ^ 23 + f : Nat) : Int) * 2 ^ (E - 1) = 0 := by simpa [Value.eq] using h
      omega
  have i2 : maxI 8 23 (pat E f) 0x00800000#32 = pat E f := by
    unfold maxI
    by_cases hlt : flt 8 23 0x00800000#32 (pat E f) = true
    · rw [if_pos hlt]
    · rw [if_neg hlt]
      rw [flt_iff 8 23 (by decide), hv, hmin] at hlt
      have hlt' : ¬ ((2 : Int) ^ 23 < ((2 ^ 23 + f : Nat) : Int) * 2 ^ (E - 1)) := hlt
      exact finite_unique Fmt.f32 hmin (by rw [hv]; congr 1; omega) (by decide)
  have i3 : flt 8 23 (pat 126 f) 0x3f3504f3#32 = b := by
    have hs : floatValue 8 23 0x3f3504f3#32 = .fin (11863283 * 2 ^ 125) := val_ps (by decide +kernel) (by decide +kernel)
    rw [Bool.eq_iff_iff, flt_iff 8 23 (by decide), pat_value (by omega) (by omega) hf, hs, hb, decide_eq_true_iff]
    show ((2 ^ 23 + f : Nat) : Int) * 2 ^ (126 - 1) < 11863283 * 2 ^ 125 ↔ _
    rw [show (126 - 1 : Nat) = 125 from rfl]
    have hP : (0 : Int) < 2 ^ 125 := by positivity
    rw [Int.mul_lt_mul_right hP]
    omega
  unfold logLane
  simp only [show (ps cv.tt cv.epi).E = 8 from rfl, show (ps cv.tt cv.epi).M = 23 from rfl, show (ps cv.tt cv.epi).minNorm = 0x00800000#32 from rfl,
    show (ps cv.tt cv.epi).invMant = 0x807fffff#32 from rfl, show (ps cv.tt cv.epi).half = 0x3f000000#32 from rfl, show (ps cv.tt cv.epi).sqrthf = 0x3f3504f3#32 from rfl,
    show (ps cv.tt cv.epi).one = 0x3f800000#32 from rfl, show (ps cv.tt cv.epi).bias = 0x7f#32 from rfl, show (ps cv.tt cv.epi).ofInt = cv.epi from rfl,
    show (ps cv.tt cv.epi).logQ1 = 0xb95e8083#32 from rfl, show (ps cv.tt cv.epi).logQ2 = 0x3f318000#32 from rfl, i1, i2, pat_mant (show E ≤ 255 by omega) hf, i3]
  exact BitVec.or_zero

theorem int_value {F : FloatUnit} (hF : IeeeArith F 8 23 32) {x y : BitVec 32} {m n : Int} (hx : floatValue 8 23 x = .fin (m * 2 ^ 149)) (hy : floatValue 8 23 y = .fin (n * 2 ^ 149))
    (h : (m - n).natAbs ≤ 2 ^ 24) (h' : (m + n).natAbs ≤ 2 ^ 24) :
    floatValue 8 23 (F.add 32 x y) = .fin ((m + n) * 2 ^ 149) ∧ floatValue 8 23 (F.sub 32 x y) = .fin ((m - n) * 2 ^ 149) := by
  obtain ⟨s, hs⟩ := dyadic_is_float Fmt.f32 (m + n) 149 h' (by decide)
  obtain ⟨t, ht⟩ := dyadic_is_float Fmt.f32 (m - n) 149 h (by decide)
  exact ⟨add_exact hF hx hy hs (by ring), sub_exact hF hx hy ht (by ring)⟩

/-- Exponent and reduced mantissa are exact. -/
theorem log_parts {F : FloatUnit} (hF : IeeeArith F 8 23 32) {cv : Cvt} (hcv : IeeeCvt cv) {E f : Nat} (hE : E ≤ 254) (hf : f < 2 ^ 23) (b : Bool) :
    floatValue 8 23 (F.add 32 (F.sub 32 (pat 126 f) 0x3f800000#32) (pat 126 f &&& maskOf b)) = .fin ((if b then 2 * (f : Int) else f - 2 ^ 23) * 2 ^ 125) ∧
    floatValue 8 23 (F.sub 32 (F.add 32 (cv.epi (pat E f >>> 23 - 0x7f#32)) 0x3f800000#32) (0x3f800000#32 &&& maskOf b)) =
      .fin ((if b then (E : Int) - 127 else E - 126) * 2 ^ 149) := by
  have hone : floatValue 8 23 0x3f800000#32 = .fin (1 * 2 ^ 149) := val_ps (by decide +kernel) (by decide +kernel)
  have hone' : floatValue 8 23 0x3f800000#32 = .fin (2 ^ 24 * 2 ^ 125) := val_ps (by decide +kernel) (by decide +kernel)
  have hz : floatValue 8 23 (0 : BitVec 32) = .fin 0 := value_zeroPattern Fmt.f32
  constructor
  · have hm := pat_value (E := 126) (by omega) (by omega) hf
    rw [show (126 - 1 : Nat) = 125 from rfl] at hm
    obtain ⟨s, hs⟩ := dyadic_is_float Fmt.f32 (((2 ^ 23 + f : Nat) : Int) - 2 ^ 24) 125 (by omega) (by decide)
    have h1 := sub_exact hF hm hone' hs (by ring)
    cases b
    · rw [show pat 126 f &&& maskOf false = 0 by show _ &&& (0 : BitVec 32) = 0; exact BitVec.and_zero]
      have := add_zeroR hF Fmt.f32 h1 hz
      rw [this]
      refine congrArg Value.fin ?_
      simp only [Bool.false_eq_true, if_false]
      congr 1
      push_cast; omega
    · rw [show pat 126 f &&& maskOf true = pat 126 f by show _ &&& BitVec.allOnes 32 = _; exact BitVec.and_allOnes]
      obtain ⟨t, ht⟩ := dyadic_is_float Fmt.f32 (2 * (f : Int)) 125 (by omega) (by decide)
      simp only [if_true]
      refine add_exact hF h1 hm ht ?_
      push_cast; ring
  · have he := hcv.epi (pat E f >>> 23 - 0x7f#32) (by rw [pat_exp hE hf]; omega)
    rw [pat_exp hE hf, unit_ps, Int.mul_comm] at he
    have h1 := (int_value hF he hone (by omega) (by omega)).1
    cases b
    · rw [show 0x3f800000#32 &&& maskOf false = (0 : BitVec 32) by show _ &&& (0 : BitVec 32) = 0; exact BitVec.and_zero]
      have := sub_zeroR hF Fmt.f32 h1 hz
      rw [this]
      refine congrArg Value.fin ?_
      simp only [Bool.false_eq_true, if_false]
      congr 1
      omega
    · rw [show 0x3f800000#32 &&& maskOf true = 0x3f800000#32 by show _ &&& BitVec.allOnes 32 = _; exact BitVec.and_allOnes]
      have := (int_value hF h1 hone (by omega) (by omega)).2
      rw [this]
      refine congrArg Value.fin ?_
      simp only [if_true]
      congr 1
      omega

theorem log_lower {r : ℝ} (h1 : -0.2929 ≤ r) (h2 : r ≤ 0.41422) : 0.7071 * |r| ≤ |Real.log (1 + r)| ∧ -0.41424 ≤ Real.log (1 + r) ∧ Real.log (1 + r) ≤ 0.41422 := by
  have hp : 0 < 1 + r := by linarith
  have u := Real.log_le_sub_one_of_pos hp
  have l := Real.one_sub_inv_le_log_of_pos hp
  have e : 1 - (1 + r)⁻¹ = r / (1 + r) := by field_simp; ring
  rw [e] at l
  refine ⟨?_, ?_, by linarith⟩
  · rcases le_total 0 r with h0 | h0
    · have h3 : 0.7071 * r ≤ r / (1 + r) := by
        rw [le_div_iff₀ hp]; nlinarith
      rw [abs_of_nonneg h0]
      exact le_trans (le_trans h3 l) (le_abs_self _)
    · rw [abs_of_nonpos h0]
      have := neg_le_abs (Real.log (1 + r))
      linarith
  · refine le_trans ?_ l
    rw [le_div_iff₀ hp]; nlinarith

theorem logLane_close {F : FloatUnit} (hF : IeeeArith F 8 23 32) {cv : Cvt} (hcv : IeeeCvt cv) (x : BitVec 32) (a : ℝ) (hx : IsReal 8 23 x a) (ha : 1 / 2 ^ 126 ≤ a) :
    Close 8 23 (logLane F (ps cv.tt cv.epi) x) (Real.log a) (4 / 10 ^ 7 * |Real.log a|) := by
  have hU := unitR_pos 8 23
  have hUv : (floatUnit 8 23 : ℝ) = 2 ^ 149 := by norm_num [unit_ps]
  obtain ⟨v, hv, hva⟩ := hx
  have hv23 : (2 : Int) ^ 23 ≤ v := by
    have h1 : (v : ℝ) = a * 2 ^ 149 := by rw [← hUv]; rwa [div_eq_iff (ne_of_gt hU)] at hva
    have h2 : ((2 ^ 23 : Int) : ℝ) ≤ v := by
      rw [h1]
      have := mul_le_mul_of_nonneg_right ha (show (0 : ℝ) ≤ 2 ^ 149 by positivity)
      refine le_trans ?_ this
      norm_num
    exact_mod_cast h2
  obtain ⟨E, f, hE1, hE, hf, rfl⟩ := pat_of_value hv hv23
  have hvv := Value.fin.inj (hv.symm.trans (pat_value hE1 hE hf))
  obtain ⟨b, hb⟩ : ∃ b, b = decide (2 ^ 23 + f < 11863283) := ⟨_, rfl⟩
  rw [logLane_pat hE1 hE hf b hb]
  obtain ⟨px, pe⟩ := log_parts hF hcv hE hf b
  simp only
  generalize F.add 32 (F.sub 32 (pat 126 f) 0x3f800000#32) (pat 126 f &&& maskOf b) = X at px
  generalize F.sub 32 (F.add 32 (cv.epi (pat E f >>> 23 - 0x7f#32)) 0x3f800000#32) (0x3f800000#32 &&& maskOf b) = e at pe
  -- the real numbers behind X and e
  obtain ⟨r, n, hX, he, hn, hr1, hr2, hr0, hlog⟩ : ∃ (r : ℝ) (n : Int), Close 8 23 X r 0 ∧ floatValue 8 23 e = .fin (n * 2 ^ 149) ∧ n.natAbs ≤ 128 ∧ -0.2929 ≤ r ∧ r ≤ 0.41422 ∧
      (r = 0 ∨ 1 / 2 ^ 24 ≤ |r|) ∧ a = (1 + r) * (2 : ℝ) ^ n := by
    have ha2 : a = ((2 ^ 23 + f : Nat) : ℝ) * (2 : ℝ) ^ ((E : Int) - 150) := by
      rw [← hva, hvv, hUv, zpow_sub₀ (by norm_num)]
      have hpw : (2 : ℝ) ^ (E : Int) = 2 * 2 ^ (E - 1) := by
        rw [zpow_natCast, ← pow_succ']; congr 1; omega
      rw [hpw, Int.cast_mul, Int.cast_pow, show ((2 : Int) : ℝ) = 2 from rfl, Int.cast_natCast]
      generalize (2 : ℝ) ^ (E - 1) = Q
      have : (2 : ℝ) ^ (150 : Int) = 2 * 2 ^ 149 := by norm_num
      rw [this]
      field_simp
    cases b
    · have hb' := (decide_eq_false_iff_not.mp hb.symm)
      simp only [Bool.false_eq_true, if_false] at px pe
      refine ⟨((f : ℝ) - 2 ^ 23) / 2 ^ 24, (E : Int) - 126, close_dyadic unit_ps px (s := 24) rfl (by push_cast; norm_num), pe, by omega, ?_, ?_, ?_, ?_⟩
      · have : (11863283 : ℝ) ≤ 2 ^ 23 + f := by exact_mod_cast (by omega : 11863283 ≤ 2 ^ 23 + f)
        rw [le_div_iff₀ (by positivity)]; linarith
      · have : (f : ℝ) ≤ 2 ^ 23 := by exact_mod_cast hf.le
        rw [div_le_iff₀ (by positivity)]; linarith
      · right
        have : (f : ℝ) ≤ 2 ^ 23 - 1 := by
          have h : f + 1 ≤ 2 ^ 23 := by omega
          have : (f : ℝ) + 1 ≤ 2 ^ 23 := by exact_mod_cast h
          linarith
        rw [abs_div, abs_of_pos (show (0 : ℝ) < 2 ^ 24 by positivity), abs_of_nonpos (by linarith)]
        exact div_le_div_of_nonneg_right (by linarith) (by positivity)
      · rw [ha2, show ((E : Int) - 150) = ((E : Int) - 126) + (-24) by ring, zpow_add₀ (by norm_num)]
        generalize (2 : ℝ) ^ ((E : Int) - 126) = Q
        rw [show (2 : ℝ) ^ (-24 : Int) = 1 / 2 ^ 24 by norm_num]
        push_cast; field_simp; norm_num; ring
    · have hb' := (decide_eq_true_iff.mp hb.symm)
      simp only [if_true] at px pe
      refine ⟨(f : ℝ) / 2 ^ 23, (E : Int) - 127, close_dyadic unit_ps px (s := 24) rfl (by push_cast; rw [show (2 : ℝ) * f / 2 ^ 24 - f / 2 ^ 23 = 0 by ring]; simp), pe, by omega, ?_, ?_, ?_, ?_⟩
      · have : (0 : ℝ) ≤ (f : ℝ) / 2 ^ 23 := by positivity
        linarith
      · have : (2 : ℝ) ^ 23 + f ≤ 11863283 := by exact_mod_cast (by omega : 2 ^ 23 + f ≤ 11863283)
        rw [div_le_iff₀ (by positivity)]; norm_num at *; linarith
      · rcases Nat.eq_zero_or_pos f with h0 | h0
        · left; rw [h0]; simp
        · right
          have : (1 : ℝ) ≤ f := by exact_mod_cast h0
          rw [abs_of_nonneg (by positivity), le_div_iff₀ (by positivity)]
          norm_num; linarith
      · rw [ha2, show ((E : Int) - 150) = ((E : Int) - 127) + (-23) by ring, zpow_add₀ (by norm_num)]
        generalize (2 : ℝ) ^ ((E : Int) - 127) = Q
        rw [show (2 : ℝ) ^ (-23 : Int) = 1 / 2 ^ 23 by norm_num]
        push_cast; field_simp; norm_num; ring
  clear px pe hb hv hva hvv hv23
  have hp1 : 0 < 1 + r := by linarith
  have hla : Real.log a = Real.log (1 + r) + n * Real.log 2 := by
    rw [hlog, Real.log_mul (ne_of_gt hp1) (by positivity), Real.log_zpow]
  obtain ⟨g1, g2, g3⟩ := log_lower hr1 hr2
  have hr : |r| ≤ 20711/50000 := by rw [abs_le]; constructor <;> linarith
  have hP := logQ_chain hF hX hr
  have happ := logP_close r hr1 hr2
  change Close 8 23 (F.add 32 (F.add 32 X (F.sub 32 (F.add 32 (F.mul 32 (F.mul 32 _ X) (F.mul 32 X X)) (F.mul 32 e 0xb95e8083#32)) (F.mul 32 (F.mul 32 X X) 0x3f000000#32)))
    (F.mul 32 e 0x3f318000#32)) _ _
  by_cases hn0 : n = 0
  · -- near 1
    subst hn0
    have he0 : floatValue 8 23 e = .fin 0 := by rw [he]; simp
    have hq1 : floatValue 8 23 (F.mul 32 e 0xb95e8083#32) = .fin 0 := mul_exact hF he0 (val_ps (v := -14581891 * 2 ^ 113) (by decide +kernel) (by decide +kernel)) (value_zeroPattern Fmt.f32) (by simp)
    have hq2 : floatValue 8 23 (F.mul 32 e 0x3f318000#32) = .fin 0 := mul_exact hF he0 (val_ps (v := 355 * 2 ^ 140) (by decide +kernel) (by decide +kernel)) (value_zeroPattern Fmt.f32) (by simp)
    have hla' : Real.log a = Real.log (1 + r) := by rw [hla]; simp
    rcases hr0 with h0 | h0
    · subst h0
      obtain ⟨vX, hvX, hvX0⟩ := hX
      have hvX1 : vX = 0 := by
        have := abs_nonpos_iff.mp hvX0
        rw [sub_zero, div_eq_zero_iff] at this
        rcases this with h | h
        · exact_mod_cast h
        · exact absurd h (ne_of_gt hU)
      subst hvX1
      obtain ⟨⟨vp, hvp, -⟩, -⟩ := hP
      have zz := value_zeroPattern (E := 8) (M := 23) (k := 32) Fmt.f32
      have k1 := mul_exact hF hvp hvX zz (by simp)
      have k2 := mul_exact hF hvX hvX zz (by simp)
      have k3 := mul_exact hF k1 k2 zz (by simp)
      have k4 := add_exact hF k3 hq1 zz (by simp)
      have k5 := mul_exact hF k2 (val_ps (x := 0x3f000000#32) (v := 1 * 2 ^ 148) (by decide +kernel) (by decide +kernel)) zz (by simp)
      have k6 := sub_exact hF k4 k5 zz (by simp)
      have k7 := add_exact hF hvX k6 zz (by simp)
      have k8 := add_exact hF k7 hq2 zz (by simp)
      refine ⟨0, k8, ?_⟩
      rw [hla']; simp
    · have hc := log_chain_near hF hX hr h0 hP ⟨0, hq1, by simp⟩ ⟨0, hq2, by simp⟩
      rw [hla']
      refine Close.weaken (Close.move hc happ) ?_
      have hr3 : |r| ^ 3 ≤ 0.172 * |r| := by
        have : |r| ^ 2 ≤ (20711/50000) ^ 2 := pow_le_pow_left₀ (abs_nonneg r) hr 2
        have h2 : |r| ^ 2 ≤ 0.172 := le_trans this (by norm_num)
        have := mul_le_mul_of_nonneg_right h2 (abs_nonneg r)
        calc |r| ^ 3 = |r| ^ 2 * |r| := by ring
          _ ≤ _ := this
      have := abs_nonneg r
      linarith
  · -- away from 1
    have hnR : |(n : ℝ)| ≤ 128 := by
      have : |n| ≤ 128 := by rw [Int.abs_eq_natAbs]; omega
      exact_mod_cast this
    have hec : Close 8 23 e n 0 := close_dyadic unit_ps he (s := 0) rfl (by simp)
    have hc := log_chain hF hX hr hP ⟨hec, hnR⟩
    obtain ⟨s, hs⟩ := dyadic_is_float Fmt.f32 (n * 355) 140 (by omega) (by decide)
    have hq2 : floatValue 8 23 (F.mul 32 e 0x3f318000#32) = .fin (n * 355 * 2 ^ 140) :=
      mul_exact hF he (val_ps (v := 355 * 2 ^ 140) (by decide +kernel) (by decide +kernel)) hs (by rw [unit_ps]; ring)
    have hq2c : Close 8 23 (F.mul 32 e 0x3f318000#32) (n * (355/512)) 0 := close_dyadic unit_ps hq2 (s := 9) rfl (by push_cast; norm_num; ring)
    have hr3 : |r| ^ 3 ≤ 0.0711 := by
      have : |r| ^ 3 ≤ (20711/50000) ^ 3 := pow_le_pow_left₀ (abs_nonneg r) hr 3
      exact le_trans this (by norm_num)
    have hc2 := Close.weaken (Close.move hc (t' := Real.log (1 + r) + n * (Real.log 2 - 355/512)) (δ := 4.3 / 10 ^ 9) (by
      rw [show logP r + n * (Real.log 2 - 355/512) - (Real.log (1 + r) + n * (Real.log 2 - 355/512)) = logP r - Real.log (1 + r) by ring]
      refine le_trans happ ?_
      linarith)) (show _ ≤ (9 / 10 ^ 8 : ℝ) by norm_num)
    obtain ⟨l1, l2⟩ := log2_bounds
    have hlow : 0.2788 ≤ |Real.log a| := by
      rw [hla]
      rcases lt_or_gt_of_ne hn0 with h | h
      · have h1 : (n : ℝ) ≤ -1 := by exact_mod_cast (by omega : n ≤ -1)
        have h2 : (n : ℝ) * Real.log 2 ≤ -1 * Real.log 2 := mul_le_mul_of_nonneg_right h1 (by linarith)
        have := neg_le_abs (Real.log (1 + r) + n * Real.log 2)
        linarith
      · have h1 : (1 : ℝ) ≤ n := by exact_mod_cast (by omega : 1 ≤ n)
        have h2 : 1 * Real.log 2 ≤ (n : ℝ) * Real.log 2 := mul_le_mul_of_nonneg_right h1 (by linarith)
        have := le_abs_self (Real.log (1 + r) + n * Real.log 2)
        linarith
    have hup : |Real.log a| ≤ 100 := by
      rw [hla]
      have h1 : |(n : ℝ) * Real.log 2| ≤ 128 * 0.7 := by
        rw [abs_mul, abs_of_pos (show 0 < Real.log 2 by linarith)]
        exact mul_le_mul hnR (by linarith) (by linarith) (by norm_num)
      have h2 : |Real.log (1 + r)| ≤ 1 := by rw [abs_le]; constructor <;> linarith
      exact le_trans (abs_add_le _ _) (by linarith)
    have e1 : Real.log (1 + r) + n * (Real.log 2 - 355/512) + n * (355/512) = Real.log a := by rw [hla]; ring
    have hfin := Close.add Fmt.f32 hF hc2 hq2c (B := |Real.log a| + 1 / 10 ^ 7) (by rw [e1]; norm_num) (by norm_num; linarith)
    rw [e1] at hfin
    refine Close.weaken hfin ?_
    have ht := tiny Fmt.f32
    norm_num at ht ⊢
    linarith

/-! ### Kernels -/

/-- **C91**: with IEEE-754 arithmetic (any tie-breaking), the vector float32 exp has a relative error of at most `4e-7` for every argument from
-87.33 (next to -87.3365, where the result stops being a normal number) to 88.37. -/
theorem C91_exp_float32_partial (F : FloatUnit) (hF : IeeeArith F 8 23 32) (L : Libm) (cv : Cvt) (hcv : IeeeCvt cv)
    (e : TrigFunc) (he : TrigKernel F L cv .exp .f32 e) (x : BitVec e.bits) (a : ℝ) (hx : IsReal 8 23 x a) (hl : -87.33 ≤ a) (hh : a ≤ 88.37) :
    Close 8 23 (e.vec x) (Real.exp a) (4 / 10 ^ 7 * Real.exp a) := by
  rcases kernelT he with ⟨_, rfl⟩ | ⟨h, _⟩
  · exact expLane_close hF hcv x a hx hl hh
  · cases h

/-- **C91**: the vector float32 log has a relative error of at most `4e-7` for every positive normal argument - also next to 1, where the
logarithm itself is small. -/
theorem C91_log_float32_partial (F : FloatUnit) (hF : IeeeArith F 8 23 32) (L : Libm) (cv : Cvt) (hcv : IeeeCvt cv)
    (e : TrigFunc) (he : TrigKernel F L cv .log .f32 e) (x : BitVec e.bits) (a : ℝ) (hx : IsReal 8 23 x a) (ha : 1 / 2 ^ 126 ≤ a) :
    Close 8 23 (e.vec x) (Real.log a) (4 / 10 ^ 7 * |Real.log a|) := by
  rcases kernelT he with ⟨_, rfl⟩ | ⟨h, _⟩
  · exact logLane_close hF hcv x a hx ha
  · cases h

/-- **C91** is false of the exp of large float32 arguments: exp(88.5) and exp(88.625) are the same bits, though both are representable and differ by 13%;
so one of them is wrong by more than 5%. -/
theorem C91_exp_float32_large_violated (F : FloatUnit) (L : Libm) (cv : Cvt) (e : TrigFunc) (he : TrigKernel F L cv .exp .f32 e)
    (x y : BitVec e.bits) (hx : IsReal 8 23 x 88.5) (hy : IsReal 8 23 y 88.625) :
    e.vec x = e.vec y ∧
    ¬ (Close 8 23 (e.vec x) (Real.exp 88.5) (0.05 * Real.exp 88.5) ∧ Close 8 23 (e.vec y) (Real.exp 88.625) (0.05 * Real.exp 88.625)) := by
  have hU := unitR_pos 8 23
  have hUv : (floatUnit 8 23 : ℝ) = 2 ^ 149 := by norm_num [unit_ps]
  have heq : e.vec x = e.vec y := by
    rcases kernelT he with ⟨_, rfl⟩ | ⟨h, _⟩
    swap
    · cases h
    have hhi : ∀ (x : BitVec 32) (a : ℝ), IsReal 8 23 x a → 88.5 ≤ a → flt 8 23 x 0x42b0c0a5#32 = false := by
      rintro x a ⟨v, hv, hva⟩ ha
      rw [Bool.eq_false_iff, Ne, flt_iff 8 23 (by decide), hv,
        show floatValue 8 23 0x42b0c0a5#32 = .fin (0xb0c0a5 * 2 ^ 132) from val_ps (x := 0x42b0c0a5#32) (by decide +kernel) (by decide +kernel)]
      show ¬ (v < _)
      intro hlt
      have h1 : (v : ℝ) < ((0xb0c0a5 * 2 ^ 132 : Int) : ℝ) := by exact_mod_cast hlt
      rw [div_eq_iff (ne_of_gt hU), hUv] at hva
      have h2 := mul_le_mul_of_nonneg_right ha (show (0 : ℝ) ≤ 2 ^ 149 by positivity)
      rw [hva] at h1
      push_cast at h1
      norm_num at h1 h2
      linarith
    exact (exp_high F (ps cv.tt cv.epi) x (hhi x _ hx (by norm_num))).trans (exp_high F (ps cv.tt cv.epi) y (hhi y _ hy (by norm_num))).symm
  refine ⟨heq, ?_⟩
  rintro ⟨⟨v, h1, h2⟩, ⟨w, h3, h4⟩⟩
  rw [heq] at h1
  have : v = w := Value.fin.inj (h1.symm.trans h3)
  subst this
  have h5 : Real.exp 88.625 = Real.exp 88.5 * Real.exp 0.125 := by rw [← Real.exp_add]; norm_num
  have h6 := Real.add_one_le_exp (0.125 : ℝ)
  have h7 := Real.exp_pos 88.5
  have h8 := mul_le_mul_of_nonneg_left h6 h7.le
  rw [← h5] at h8
  obtain ⟨g1, g2⟩ := abs_le.mp h2
  obtain ⟨g3, g4⟩ := abs_le.mp h4
  linarith

/-- **C91** is false of the exp of very negative float32 arguments too: the result is the same for all of them, though exp(-89) and exp(-90) differ by a factor
of more than 2.7 (both are representable, as subnormal numbers); so one of them is wrong by more than 30%. -/
theorem C91_exp_float32_small_violated (F : FloatUnit) (L : Libm) (cv : Cvt) (e : TrigFunc) (he : TrigKernel F L cv .exp .f32 e)
    (x y : BitVec e.bits) (hx : IsReal 8 23 x (-89)) (hy : IsReal 8 23 y (-90)) :
    e.vec x = e.vec y ∧
    ¬ (Close 8 23 (e.vec x) (Real.exp (-89)) (0.3 * Real.exp (-89)) ∧ Close 8 23 (e.vec y) (Real.exp (-90)) (0.3 * Real.exp (-90))) := by
  have hU := unitR_pos 8 23
  have hUv : (floatUnit 8 23 : ℝ) = 2 ^ 149 := by norm_num [unit_ps]
  have heq : e.vec x = e.vec y := by
    rcases kernelT he with ⟨_, rfl⟩ | ⟨h, _⟩
    swap
    · cases h
    have hlo : ∀ (x : BitVec 32) (a : ℝ), IsReal 8 23 x a → a ≤ -89 → flt 8 23 x 0x42b0c0a5#32 = true ∧ flt 8 23 0xc2b0c0a5#32 x = false := by
      rintro x a ⟨v, hv, hva⟩ ha
      rw [div_eq_iff (ne_of_gt hU), hUv] at hva
      have h2 := mul_le_mul_of_nonneg_right ha (show (0 : ℝ) ≤ 2 ^ 149 by positivity)
      constructor
      · rw [flt_iff 8 23 (by decide), hv,
          show floatValue 8 23 0x42b0c0a5#32 = .fin (0xb0c0a5 * 2 ^ 132) from val_ps (x := 0x42b0c0a5#32) (by decide +kernel) (by decide +kernel)]
        show v < _
        have h1 : (v : ℝ) < ((0xb0c0a5 * 2 ^ 132 : Int) : ℝ) := by
          rw [hva]; push_cast; refine lt_of_le_of_lt h2 ?_; norm_num
        exact_mod_cast h1
      · rw [Bool.eq_false_iff, Ne, flt_iff 8 23 (by decide), hv,
          show floatValue 8 23 0xc2b0c0a5#32 = .fin (-(0xb0c0a5 * 2 ^ 132)) from val_ps (x := 0xc2b0c0a5#32) (by decide +kernel) (by decide +kernel)]
        show ¬ (_ < v)
        intro hlt
        have h1 : ((-(0xb0c0a5 * 2 ^ 132) : Int) : ℝ) < (v : ℝ) := by exact_mod_cast hlt
        rw [hva] at h1
        push_cast at h1
        norm_num at h1 h2
        linarith
    have hc : flt 8 23 0xc2b0c0a5#32 0x42b0c0a5#32 = true := by decide +kernel
    obtain ⟨x1, x2⟩ := hlo x _ hx (by norm_num)
    obtain ⟨y1, y2⟩ := hlo y _ hy (by norm_num)
    exact (exp_low F (ps cv.tt cv.epi) hc x x1 x2).trans (exp_low F (ps cv.tt cv.epi) hc y y1 y2).symm
  refine ⟨heq, ?_⟩
  rintro ⟨⟨v, h1, h2⟩, ⟨w, h3, h4⟩⟩
  rw [heq] at h1
  have : v = w := Value.fin.inj (h1.symm.trans h3)
  subst this
  have h5 : Real.exp (-89) = Real.exp (-90) * Real.exp 1 := by rw [← Real.exp_add]; norm_num
  have h6 := Real.add_one_le_exp (1 : ℝ)
  have h7 := Real.exp_pos (-90)
  have h8 := mul_le_mul_of_nonneg_left h6 h7.le
  rw [← h5] at h8
  obtain ⟨g1, g2⟩ := abs_le.mp h2
  obtain ⟨g3, g4⟩ := abs_le.mp h4
  linarith

/-- **C91** is false of the log of subnormal float32 numbers: log(2^-140) comes out near log(2^-126), wrong by more than 9. -/
theorem C91_log_float32_subnormal_violated (F : FloatUnit) (hF : IeeeArith F 8 23 32) (L : Libm) (cv : Cvt) (hcv : IeeeCvt cv) (e : TrigFunc)
    (he : TrigKernel F L cv .log .f32 e) (x : BitVec e.bits) (hx : IsReal 8 23 x (1 / 2 ^ 140)) : ¬ Close 8 23 (e.vec x) (Real.log (1 / 2 ^ 140)) 9 := by
  have hU := unitR_pos 8 23
  have hUv : (floatUnit 8 23 : ℝ) = 2 ^ 149 := by norm_num [unit_ps]
  rcases kernelT he with ⟨_, rfl⟩ | ⟨h, _⟩
  swap
  · cases h
  change BitVec 32 at x
  show ¬ Close 8 23 (logLane F (ps cv.tt cv.epi) x) _ _
  obtain ⟨v, hv, hva⟩ := hx
  rw [div_eq_iff (ne_of_gt hU), hUv] at hva
  have hv9 : v = 2 ^ 9 := by
    have : (v : ℝ) = ((2 ^ 9 : Int) : ℝ) := by rw [hva]; norm_num
    exact_mod_cast this
  subst hv9
  have hmin : floatValue 8 23 0x00800000#32 = .fin (2 ^ 23) := val_ps (by decide +kernel) (by decide +kernel)
  have heq : logLane F (ps cv.tt cv.epi) x = logLane F (ps cv.tt cv.epi) 0x00800000#32 := by
    refine log_tiny F (ps cv.tt cv.epi) x ?_ (by show fle 8 23 0x00800000#32 0 = false; decide) ?_
    · show fle 8 23 x 0 = false
      rw [Bool.eq_false_iff, Ne, fle_iff 8 23 (by decide), hv, value_zeroPattern Fmt.f32]
      rintro (h | h)
      · exact absurd h (by show ¬ ((2 : Int) ^ 9 < 0); decide)
      · simp [Value.eq] at h
    · show flt 8 23 0x00800000#32 x = false
      rw [Bool.eq_false_iff, Ne, flt_iff 8 23 (by decide), hv, hmin]
      show ¬ ((2 : Int) ^ 23 < 2 ^ 9)
      decide
  rw [heq]
  have hc := logLane_close hF hcv 0x00800000#32 (1 / 2 ^ 126) ⟨_, hmin, by rw [hUv]; push_cast; norm_num⟩ (le_refl _)
  rintro ⟨w, w1, w2⟩
  obtain ⟨w', w1', w2'⟩ := hc
  have : w = w' := Value.fin.inj (w1.symm.trans w1')
  subst this
  have l1 : Real.log (1 / 2 ^ 140) = -(140 * Real.log 2) := by rw [one_div, Real.log_inv, Real.log_pow]; norm_num
  have l2 : Real.log (1 / 2 ^ 126) = -(126 * Real.log 2) := by rw [one_div, Real.log_inv, Real.log_pow]; norm_num
  obtain ⟨b1, b2⟩ := log2_bounds
  rw [l1] at w2
  rw [l2, abs_neg, abs_of_nonneg (by linarith : 0 ≤ 126 * Real.log 2)] at w2'
  obtain ⟨g1, g2⟩ := abs_le.mp w2
  obtain ⟨g3, g4⟩ := abs_le.mp w2'
  norm_num at g3 g4
  linarith

/-- **C91** is false of float64: exp(0.0) is not within a million of 1, and log(1.0) is not within 700 of 0. -/
theorem C91_float64_violated (F : FloatUnit) (hF : IeeeArith F 11 52 64) (L : Libm) (cv : Cvt) :
    (∀ (e : TrigFunc) (_ : TrigKernel F L cv .exp .f64 e) (x : BitVec e.bits), IsReal 11 52 x 0 → ¬ Close 11 52 (e.vec x) (Real.exp 0) (10 ^ 6)) ∧
    (∀ (e : TrigFunc) (_ : TrigKernel F L cv .log .f64 e) (x : BitVec e.bits), IsReal 11 52 x 1 → ¬ Close 11 52 (e.vec x) (Real.log 1) 699) := by
  have hU := unitR_pos 11 52
  constructor
  · intro e he x hx
    rcases kernelT he with ⟨h, _⟩ | ⟨_, rfl⟩
    · cases h
    obtain ⟨v, hv, hva⟩ := hx
    have hv0 : v = 0 := by
      rw [div_eq_zero_iff] at hva
      rcases hva with h | h
      · exact_mod_cast h
      · exact absurd h (ne_of_gt hU)
    subst hv0
    have h0 := C62_exp_zero_double_violated F hF x hv
    rintro ⟨w, w1, w2⟩
    have hw := Value.fin.inj (w1.symm.trans h0)
    subst hw
    rw [Int.cast_mul, mul_div_cancel_left₀ _ (ne_of_gt hU), Real.exp_zero] at w2
    have hbig : (2 : ℝ) ^ 30 ≤ ((2 ^ 1023 : Int) : ℝ) := by
      rw [Int.cast_pow]
      exact pow_le_pow_right₀ (by norm_num) (by norm_num)
    generalize ((2 ^ 1023 : Int) : ℝ) = B at *
    obtain ⟨g1, g2⟩ := abs_le.mp w2
    norm_num at hbig g2
    linarith
  · intro e he x hx
    rcases kernelT he with ⟨h, _⟩ | ⟨_, rfl⟩
    · cases h
    obtain ⟨v, hv, hva⟩ := hx
    change BitVec 64 at x
    have hv1 : v = floatUnit 11 52 := by
      rw [div_eq_one_iff_eq (ne_of_gt hU)] at hva
      exact_mod_cast hva
    have hone : floatValue 11 52 0x3ff0000000000000#64 = .fin (floatUnit 11 52) := by
      rw [unit_pd]; exact val_pd (x := 0x3ff0000000000000#64) (by decide +kernel) (by decide +kernel)
    have hxe : x = 0x3ff0000000000000#64 := finite_unique Fmt.f64 hv (by rw [hone, hv1]) (by rw [hv1]; exact ne_of_gt (unit_pos 11 52))
    subst hxe
    obtain ⟨r, h1, h2⟩ := (C62_log_one_violated F hF).1
    rintro ⟨w, w1, w2⟩
    have hw : w = r := Value.fin.inj (w1.symm.trans h1)
    subst hw
    have h3 : (w : ℝ) ≤ floatUnit 11 52 * (-700) := by exact_mod_cast h2
    have h4 : (w : ℝ) / floatUnit 11 52 ≤ -700 := by rw [div_le_iff₀ hU]; linarith
    rw [Real.log_one] at w2
    obtain ⟨g1, g2⟩ := abs_le.mp w2
    linarith

/-! ### Calls -/

/-- The arguments for which the float32 exp and log are accurate. -/
def accurateRange : TFn → ℝ → Prop
  | .exp, a => -87.33 ≤ a ∧ a ≤ 88.37
  | .log, a => 1 / 2 ^ 126 ≤ a
  | _, _ => False

/-- **C91**: after a float32 exp or log call, threaded or not, on any length, addresses and strides, under every setting, schedule and interleaving,
every output element whose input lies in `accurateRange` has a relative error of at most `4e-7` - provided the library function used for the
elements outside whole vectors is that accurate. -/
theorem C91_call_float32_partial (F : FloatUnit) (hF : IeeeArith F 8 23 32) (L : Libm) (cv : Cvt) (hcv : IeeeCvt cv) (fn : TFn)
    (e : TrigFunc) (he : TrigKernel F L cv fn .f32 e)
    (w : World) (p s po so : Int) (hso : so ≠ 0) (n : Nat) (m : Int → BitVec e.bits) (hsafe : SafeOverlap n p s p s po so)
    (evs : List (Nat × MAcc)) (hex : TrigExec 4 p s po so n w evs) :
    ∃ m', runMemM e.f m evs = some m' ∧ ∀ i : Nat, i < n → ∀ a : ℝ, IsReal 8 23 (m (p + s * i)) a → accurateRange fn a →
      (¬ VectorPosition 4 s so n i → Close 8 23 (e.sca (m (p + s * i))) (exactFn fn a) (4 / 10 ^ 7 * |exactFn fn a|)) →
      Close 8 23 (m' (po + so * i)) (exactFn fn a) (4 / 10 ^ 7 * |exactFn fn a|) := by
  have hb : e.bits / 8 = 4 := by
    rcases kernelT he with ⟨_, rfl⟩ | ⟨h, _⟩
    · show 32 / 8 = 4; decide
    · cases h
  rw [← hb] at hex
  obtain ⟨m', r1, r2, _⟩ := C59_kernel F L cv fn .f32 e he w p s po so hso n m hsafe evs hex
  refine ⟨m', r1, ?_⟩
  intro i hi a ha hle hsc
  rw [r2 i hi]
  rw [hb]
  by_cases hv : VectorPosition 4 s so n i
  · simp only [if_pos hv]
    cases fn
    · exact hle.elim
    · exact hle.elim
    · have := C91_exp_float32_partial F hF L cv hcv e he _ a ha hle.1 hle.2
      show Close 8 23 _ (Real.exp a) (4 / 10 ^ 7 * |Real.exp a|)
      rw [abs_of_pos (Real.exp_pos a)]
      exact this
    · exact C91_log_float32_partial F hF L cv hcv e he _ a ha hle
  · simp only [if_neg hv]
    exact hsc hv

/-! ### Non-vacuity -/

theorem isReal_examples91 : IsReal 8 23 0xc22d1000#32 (-43.265625) ∧ IsReal 8 23 0x3f800001#32 (1 + 1 / 2 ^ 23) ∧ IsReal 8 23 0x42b10000#32 88.5 ∧
    IsReal 8 23 0x42b14000#32 88.625 ∧ IsReal 8 23 0x00000200#32 (1 / 2 ^ 140) ∧ IsReal 11 52 0#64 0 ∧ IsReal 11 52 0x3ff0000000000000#64 1 := by
  have key : ∀ {E M k L : Nat} {x : BitVec k} {m : Int} {t s : Nat}, floatUnit E M = 2 ^ L → floatValue E M x = .fin (m * 2 ^ t) → t + s = L → ∀ {a : ℝ}, (m : ℝ) / 2 ^ s = a → IsReal E M x a := by
    intro E M k L x m t s hU hv hs a ha
    obtain ⟨v, h1, h2⟩ := close_dyadic hU hv hs (show |(m : ℝ) / 2 ^ s - a| ≤ 0 by rw [ha]; simp)
    exact ⟨v, h1, by have := abs_nonpos_iff.mp h2; linarith⟩
  exact ⟨key unit_ps (val_ps (v := (-2769) * 2 ^ 143) (by decide +kernel) (by decide +kernel)) (s := 6) rfl (by norm_num),
    key unit_ps (val_ps (v := 8388609 * 2 ^ 126) (by decide +kernel) (by decide +kernel)) (s := 23) rfl (by norm_num),
    key unit_ps (val_ps (v := 177 * 2 ^ 148) (by decide +kernel) (by decide +kernel)) (s := 1) rfl (by norm_num),
    key unit_ps (val_ps (v := 709 * 2 ^ 146) (by decide +kernel) (by decide +kernel)) (s := 3) rfl (by norm_num),
    key unit_ps (val_ps (v := 1 * 2 ^ 9) (by decide +kernel) (by decide +kernel)) (s := 140) rfl (by norm_num),
    ⟨0, value_zeroPattern Fmt.f64, by simp⟩,
    key unit_pd (val_pd (v := 1 * 2 ^ 1074) (by decide +kernel) (by decide +kernel)) (s := 0) rfl (by norm_num)⟩

/-- All hypotheses of the C91 theorems are met together (exp of -43.265625; log of the float next to 1). -/
example (L : Libm) : ∃ (F : FloatUnit) (cv : Cvt) (e l : TrigFunc), IeeeArith F 8 23 32 ∧ IeeeCvt cv ∧ TrigKernel F L cv .exp .f32 e ∧ TrigKernel F L cv .log .f32 l ∧
    (∃ x : BitVec e.bits, IsReal 8 23 x (-43.265625) ∧ accurateRange .exp (-43.265625)) ∧ (∃ x : BitVec l.bits, IsReal 8 23 x (1 + 1 / 2 ^ 23) ∧ accurateRange .log (1 + 1 / 2 ^ 23)) ∧
    (∃ x y : BitVec e.bits, IsReal 8 23 x 88.5 ∧ IsReal 8 23 y 88.625) ∧ (∃ x : BitVec l.bits, IsReal 8 23 x (1 / 2 ^ 140)) ∧
    (∃ evs, TrigExec 4 0 4 1000 4 9 ⟨true, true, false, false, 8, 1⟩ evs) := by
  obtain ⟨F, hF, -⟩ := ieeeArith_exists Fmt.f32
  obtain ⟨cv, hcv⟩ := ieeeCvt_exists
  obtain ⟨r1, r2, r3, r4, r5, -, -⟩ := isReal_examples91
  exact ⟨F, cv, ⟨32, vecFn F (ps cv.tt cv.epi) .exp, L.fn .exp 32⟩, ⟨32, vecFn F (ps cv.tt cv.epi) .log, L.fn .log 32⟩, hF, hcv, ⟨.EXP, by decide, rfl⟩, ⟨.LOG, by decide, rfl⟩,
    ⟨_, r1, by show (-87.33 : ℝ) ≤ -43.265625 ∧ (-43.265625 : ℝ) ≤ 88.37; norm_num⟩, ⟨_, r2, by show (1 / 2 ^ 126 : ℝ) ≤ 1 + 1 / 2 ^ 23; norm_num⟩, ⟨_, _, r3, r4⟩, ⟨_, r5⟩, C59_call_finishes ..⟩

example (L : Libm) (cv : Cvt) : ∃ (F : FloatUnit) (e l : TrigFunc), IeeeArith F 11 52 64 ∧ TrigKernel F L cv .exp .f64 e ∧ TrigKernel F L cv .log .f64 l ∧
    (∃ x : BitVec e.bits, IsReal 11 52 x 0) ∧ (∃ x : BitVec l.bits, IsReal 11 52 x 1) := by
  obtain ⟨F, hF, -⟩ := ieeeArith_exists Fmt.f64
  exact ⟨F, ⟨64, vecFn F (pd F) .exp, L.fn .exp 64⟩, ⟨64, vecFn F (pd F) .log, L.fn .log 64⟩, hF, ⟨.EXP, by decide, rfl⟩, ⟨.LOG, by decide, rfl⟩,
    ⟨_, isReal_examples91.2.2.2.2.2.1⟩, ⟨_, isReal_examples91.2.2.2.2.2.2⟩⟩

/-- Case: the patterns of -89 and -90. -/
example : IsReal 8 23 0xc2b20000#32 (-89) ∧ IsReal 8 23 0xc2b40000#32 (-90) := by
  have key : ∀ {x : BitVec 32} {m : Int} {t s : Nat}, floatValue 8 23 x = .fin (m * 2 ^ t) → t + s = 149 → ∀ {a : ℝ}, (m : ℝ) / 2 ^ s = a → IsReal 8 23 x a := by
    intro x m t s hv hs a ha
    obtain ⟨v, h1, h2⟩ := close_dyadic unit_ps hv hs (show |(m : ℝ) / 2 ^ s - a| ≤ 0 by rw [ha]; simp)
    exact ⟨v, h1, by have := abs_nonpos_iff.mp h2; linarith⟩
  exact ⟨key (val_ps (v := (-89) * 2 ^ 149) (by decide +kernel) (by decide +kernel)) (s := 0) rfl (by norm_num),
    key (val_ps (v := (-90) * 2 ^ 149) (by decide +kernel) (by decide +kernel)) (s := 0) rfl (by norm_num)⟩

end Pnumpy.Props
