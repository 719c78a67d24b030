import Verif.Props.Compare
import Verif.Props.FloatOps
/-
Property theorems C14 and C43: exactly when uint64/int64 comparison and the minimum/maximum of floats are right.
-/
namespace Pnumpy.Props
open Pnumpy.Spec Pnumpy.Ieee Pnumpy.FloatOps Pnumpy.Compare

/-- **C14, exactly when** (all relations, all bit patterns): comparing uint64 with int64 is right unless the relation is `==` or `!=` and
the operands have the same bits with the sign bit set. -/
theorem C14_uint64_int64_iff_partial (op : CmpOp) (x y : BitVec 64) :
    (mixedUI op x y = true ↔ op.holds (.fin x.toNat) (.fin y.toInt)) ↔ ¬ ((op = .eq ∨ op = .ne) ∧ x = y ∧ x.msb = true) := by
  by_cases hop : op ≠ .eq ∧ op ≠ .ne
  · refine ⟨fun _ h => ?_, fun _ => C14_uint64_int64_partial op hop x y⟩
    rcases h.1 with h | h
    · exact hop.1 h
    · exact hop.2 h
  · have ho : op = .eq ∨ op = .ne := by
      cases op <;> simp at hop ⊢
    have hv := C14_uint64_eq_violated x y
    have hback : CmpOp.eq.holds (.fin x.toNat) (.fin y.toInt) → mixedUI .eq x y = true := by
      intro h
      simp only [CmpOp.holds, Value.eq, Value.fin.injEq] at h
      simp only [mixedUI, beq_iff_eq]
      have hy := BitVec.toInt_eq_msb_cond y
      have hyl := y.isLt
      have hxl := x.isLt
      apply BitVec.eq_of_toNat_eq
      cases hm : y.msb <;> rw [hm] at hy <;> simp only [Bool.false_eq_true, if_false, if_true] at hy <;> omega
    have hne : ∀ a b : BitVec 64, mixedUI .ne a b = !mixedUI .eq a b := fun a b => rfl
    have hhne : CmpOp.ne.holds (.fin x.toNat) (.fin y.toInt) ↔ ¬ CmpOp.eq.holds (.fin x.toNat) (.fin y.toInt) := Iff.rfl
    have key : (mixedUI .eq x y = true ↔ CmpOp.eq.holds (.fin x.toNat) (.fin y.toInt)) ↔ ¬ (x = y ∧ x.msb = true) := by
      rw [← hv]
      constructor
      · exact fun h h2 => h2.2 (h.1 h2.1)
      · exact fun h => ⟨fun h1 => Classical.byContradiction fun h2 => h ⟨h1, h2⟩, hback⟩
    rcases ho with rfl | rfl
    · rw [key]; simp
    · rw [hne, hhne]
      have : (((!mixedUI .eq x y) = true) ↔ ¬ CmpOp.eq.holds (.fin x.toNat) (.fin y.toInt)) ↔
          (mixedUI .eq x y = true ↔ CmpOp.eq.holds (.fin x.toNat) (.fin y.toInt)) := by
        cases mixedUI .eq x y <;> simp
      rw [this, key]; simp

/-- Case: 2^64 - 1 != -1 gives false. -/
example := C14_uint64_int64_iff_partial .ne (-1) (-1)
example : ¬ (mixedUI .ne (-1) (-1) = true ↔ CmpOp.ne.holds (.fin (-1 : BitVec 64).toNat) (.fin (-1 : BitVec 64).toInt)) := by
  rw [C14_uint64_int64_iff_partial]; decide

/-- **C43, exactly when** (all bit patterns): the minimum and the maximum are right if and only if the first operand is not NaN or the
second one is. -/
theorem C43_iff_partial {E M k : Nat} (h : Fmt E M k) (x y : BitVec k) :
    (IsMinimum (floatValue E M x) (floatValue E M y) (floatValue E M (fmin E M x y)) ↔
      (floatValue E M x = .nan → floatValue E M y = .nan)) ∧
    (IsMaximum (floatValue E M x) (floatValue E M y) (floatValue E M (fmax E M x y)) ↔
      (floatValue E M x = .nan → floatValue E M y = .nan)) := by
  by_cases hx : floatValue E M x = .nan
  · by_cases hy : floatValue E M y = .nan
    · have h1 : fmin E M x y = y := by
        unfold fmin
        rw [if_neg fun hc => vlt_nan_left _ (hx ▸ (flt_iff E M h.pos x y).mp hc)]
      have h2 : fmax E M x y = y := by
        unfold fmax
        rw [if_neg fun hc => vlt_nan_right _ (hx ▸ (flt_iff E M h.pos y x).mp hc)]
      rw [h1, h2]
      unfold IsMinimum IsMaximum
      rw [if_pos (.inl hx), if_pos (.inl hx)]
      exact ⟨⟨fun _ _ => hy, fun _ => hy⟩, ⟨fun _ _ => hy, fun _ => hy⟩⟩
    · obtain ⟨⟨_, h1⟩, _, h2⟩ := C43_minimum_violated h x y hx hy
      exact ⟨⟨fun h => absurd h h1, fun h => absurd (h hx) hy⟩, ⟨fun h => absurd h h2, fun h => absurd (h hx) hy⟩⟩
  · exact ⟨⟨fun _ h => absurd h hx, fun _ => C43_minimum_partial h x y hx⟩, ⟨fun _ h => absurd h hx, fun _ => C43_maximum_partial h x y hx⟩⟩

/-- Case: NaN and NaN (float32). -/
example := C43_iff_partial .f32 0x7fc00000#32 0xffc00001#32

end Pnumpy.Props
