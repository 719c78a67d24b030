import Verif.Props.FloatOps
/-
Property theorem C44: exactly which elements of np.negative and np.absolute depend on their position.
-/
namespace Pnumpy.Props
open Pnumpy.Spec Pnumpy.Ieee Pnumpy.FloatOps

theorem bits_zero {E M k : Nat} : neg E M (0 : BitVec k) = false := by unfold neg; simp

theorem or_quiet {E M k : Nat} (h : Fmt E M k) (x : BitVec k) : neg E M (x ||| BitVec.ofNat k (2 ^ (M - 1))) = neg E M x := by
  unfold neg
  rw [BitVec.toNat_or, Nat.testBit_or]
  have : (BitVec.ofNat k (2 ^ (M - 1))).toNat.testBit (E + M) = false := by cases h <;> decide
  rw [this, Bool.or_false]

/-- **C44, exactly when** (all bit patterns of both float types): the vector part and the tail of np.negative give the same bits if and
only if the element is neither NaN nor +0.0; those of np.absolute if and only if the element's sign bit is clear or it is neither
NaN nor -0.0. -/
theorem C44_same_bits_iff_partial {E M k : Nat} (h : Fmt E M k) (x : BitVec k) :
    (negVec E M x = negTail E M x ↔ floatValue E M x ≠ .nan ∧ x ≠ 0) ∧
    (absVec E M x = absTail E M x ↔ x.getLsbD (E + M) = false ∨ (floatValue E M x ≠ .nan ∧ floatValue E M x ≠ .fin 0)) := by
  have hx : neg E M (negTail E M x) = !neg E M x := (xor_sign h x).2
  constructor
  · constructor
    · intro e
      refine ⟨fun hn => ?_, fun h0 => ?_⟩
      · have hn' := (isNaN_iff E M x).mpr hn
        have := congrArg (neg E M) e
        rw [hx, negVec, if_pos hn', or_quiet h] at this
        cases hv : neg E M x <;> rw [hv] at this <;> cases this
      · subst h0
        have hn' : ¬ isNaN E M (0 : BitVec k) = true := by
          rw [isNaN_iff, value_zero h.pos _ (mag_zero E M k)]; intro h; cases h
        have := congrArg (neg E M) e
        rw [hx, negVec, if_neg hn', if_pos (mag_zero E M k), bits_zero] at this
        cases this
    · rintro ⟨hn, h0⟩
      have hn' : ¬ isNaN E M x = true := fun hc => hn ((isNaN_iff E M x).mp hc)
      by_cases hz : mag E M x = 0
      · have hs : neg E M x = true := by
          cases hv : neg E M x
          · exact absurd (eq_of_mag_neg h (hz.trans (mag_zero E M k).symm) (hv.trans bits_zero.symm)) h0
          · rfl
        rw [negVec, if_neg hn', if_pos hz]
        refine eq_of_mag_neg h ?_ ?_
        · rw [mag_zero]; exact ((xor_sign h x).1.trans hz).symm
        · rw [bits_zero, hx, hs]; rfl
      · rw [negVec, if_neg hn', if_neg hz]; rfl
  · show _ ↔ neg E M x = false ∨ _
    have hf := flt_iff E M h.pos x (0 : BitVec k)
    rw [value_zero h.pos _ (mag_zero E M k)] at hf
    constructor
    · intro e
      by_cases hs : neg E M x = false
      · exact Or.inl hs
      · refine Or.inr (Classical.byContradiction fun hc => hs ?_)
        have hl : ¬ flt E M x 0 = true := by
          intro hl
          have := hf.mp hl
          refine hc ⟨fun h => ?_, fun h => ?_⟩ <;> rw [h] at this
          · exact this
          · exact absurd this (Int.lt_irrefl 0)
        have := congrArg (neg E M) e
        rw [(and_abs h x).2, absTail, if_neg hl] at this
        exact this.symm
    · rintro (hs | ⟨hn, hz⟩)
      · have hl : ¬ flt E M x 0 = true := by
          unfold flt key
          rw [hs, bits_zero, mag_zero]
          simp
        rw [absTail, if_neg hl]
        exact eq_of_mag_neg h (and_abs h x).1 ((and_abs h x).2.trans hs.symm)
      · exact (C44_same_bits_partial h x hz hn).2

/-- Case: -0.0 negates to +0.0 in both parts, its absolute value depends on the position. -/
example := C44_same_bits_iff_partial .f64 0x8000000000000000#64

end Pnumpy.Props
