import Verif.Proofs.Classify
/-
Property theorem C15: isnan, isinf, isfinite, signbit.
-/
namespace Pnumpy.Props
open Pnumpy.Spec Pnumpy.Compare Pnumpy.Classify Pnumpy.Ieee

/-- What each classification says of an element, in terms of its numeric value; `signbit` looks at
the top bit of the pattern. -/
def clsHolds : (t : DT) → ClsOp → BitVec t.bits → Prop
  | t, .isnan, x => value t x = .nan
  | t, .isinf, x => value t x = .ninf ∨ value t x = .pinf
  | t, .isfinite, x => ∃ v, value t x = .fin v
  | _, .signbit, x => x.msb = true

theorem neg32 (x : BitVec 32) : neg 8 23 x = x.msb := by
  simp [neg, BitVec.msb_eq_getLsbD_last, BitVec.getLsbD]
theorem neg64 (x : BitVec 64) : neg 11 52 x = x.msb := by
  simp [neg, BitVec.msb_eq_getLsbD_last, BitVec.getLsbD]

/-- **C15**: for every element type and every hooked classification, every bit pattern of every
element, on the vector path (any number of steps), the tail and the strided loop, output byte `i` is 1
exactly when the class holds of element `i`, else 0. -/
theorem C15_classify_correct (t : DT) (op : ClsOp) (K : UKernel t.bits) (hK : clsDispatch t op = some K)
    (contig : Bool) (blocks : Nat) (xs : Nat → BitVec t.bits) (i : Nat) :
    (clsHolds t op (xs i) → K.out contig blocks xs i = 1) ∧
    (¬ clsHolds t op (xs i) → K.out contig blocks xs i = 0) := by
  have fin : ∀ {k : Nat} (f : BitVec k → Bool) (P : BitVec k → Prop) (K : UKernel k) (xs : Nat → BitVec k),
      UOk f K → (∀ x, f x = true ↔ P x) →
      (P (xs i) → K.out contig blocks xs i = 1) ∧ (¬ P (xs i) → K.out contig blocks xs i = 0) := by
    intro k f P K xs hok hP
    rw [hok.out]
    constructor
    · intro h; rw [(hP _).mpr h]; rfl
    · intro h; rw [Bool.eq_false_iff.mpr (fun h' => h ((hP _).mp h'))]; rfl
  have fl : ∀ {k : Nat} (b : Bool) (P : BitVec k → Prop) (xs : Nat → BitVec k), (∀ x, b = true ↔ P x) →
      (P (xs i) → (UKernel.fill b : UKernel k).out contig blocks xs i = 1) ∧
      (¬ P (xs i) → (UKernel.fill b : UKernel k).out contig blocks xs i = 0) :=
    fun b P xs hP => fin (fun _ => b) P (.fill b) xs (fun _ => rfl) hP
  cases t <;> cases op <;> (try cases hK)
  case f32.isnan => exact fin _ _ _ xs nanF32_ok (isnan_iff 8 23)
  case f32.isinf => exact fin _ _ _ xs infF32_ok (isinf_iff 8 23)
  case f32.isfinite => exact fin _ _ _ xs finiteF32_ok (isfinite_iff 8 23)
  case f32.signbit => exact fin (stdCls 8 23 .signbit) _ (.slow _) xs (fun _ => rfl) (fun x => by
    show neg 8 23 x = true ↔ BitVec.msb x = true
    exact Bool.eq_iff_iff.mp (neg32 x))
  case f64.isnan => exact fin _ _ _ xs nanF64_ok (isnan_iff 11 52)
  case f64.isinf => exact fin _ _ _ xs infF64_ok (isinf_iff 11 52)
  case f64.isfinite => exact fin _ _ _ xs finiteF64_ok (isfinite_iff 11 52)
  case f64.signbit => exact fin (stdCls 11 52 .signbit) _ (.slow _) xs (fun _ => rfl) (fun x => by
    show neg 11 52 x = true ↔ BitVec.msb x = true
    exact Bool.eq_iff_iff.mp (neg64 x))
  all_goals
    refine fl _ _ xs (fun x => ?_)
    simp [clsHolds, value]

/-- Every type has a kernel for isnan, isinf and isfinite. -/
theorem C15_always_hooked (t : DT) (op : ClsOp) (h : op ≠ .signbit) : (clsDispatch t op).isSome := by
  cases t <;> cases op <;> first | rfl | exact absurd rfl h

/-- Non-vacuity: a NaN, an infinity, the largest finite float and a denormal. -/
example : clsHolds .f32 .isnan 0x7f800001#32 ∧ clsHolds .f32 .isinf 0xff800000#32 ∧
    clsHolds .f32 .signbit 0x80000000#32 ∧ ¬ clsHolds .f32 .isnan 0x7f7fffff#32 := by
  unfold clsHolds; decide
example : clsHolds .f64 .isfinite 1#64 := ⟨1, by decide⟩

end Pnumpy.Props
