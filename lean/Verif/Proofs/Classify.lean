import Verif.Model.Classify
import Verif.Proofs.Simd
import Verif.Proofs.Ieee
namespace Pnumpy.Classify
open Pnumpy.Simd Pnumpy.Ieee Pnumpy.Spec Pnumpy.Compare

theorem isnan_iff (E M : Nat) {k : Nat} (x : BitVec k) :
    stdCls E M .isnan x = true ↔ floatValue E M x = .nan := isNaN_iff E M x

theorem isinf_iff (E M : Nat) {k : Nat} (x : BitVec k) :
    stdCls E M .isinf x = true ↔ (floatValue E M x = .ninf ∨ floatValue E M x = .pinf) := by
  rw [floatValue_eq]
  simp only [stdCls, beq_iff_eq]
  constructor
  · intro h
    rw [if_neg (show ¬ infMag E M < mag E M x by omega), if_pos h]
    split <;> simp
  · intro h
    by_cases h1 : infMag E M < mag E M x
    · rw [if_pos h1] at h; simp at h
    · rw [if_neg h1] at h
      by_cases h2 : mag E M x = infMag E M
      · exact h2
      · rw [if_neg h2] at h; simp at h

theorem isfinite_iff (E M : Nat) {k : Nat} (x : BitVec k) :
    stdCls E M .isfinite x = true ↔ ∃ v, floatValue E M x = .fin v := by
  rw [floatValue_eq]
  simp only [stdCls, decide_eq_true_eq]
  constructor
  · intro h
    rw [if_neg (show ¬ infMag E M < mag E M x by omega), if_neg (show ¬ mag E M x = infMag E M by omega)]
    exact ⟨_, rfl⟩
  · rintro ⟨v, h⟩
    by_cases h1 : infMag E M < mag E M x
    · rw [if_pos h1] at h; cases h
    · rw [if_neg h1] at h
      by_cases h2 : mag E M x = infMag E M
      · rw [if_pos h2] at h; split at h <;> cases h
      · omega

theorem fne_self (E M : Nat) {k : Nat} (x : BitVec k) : fne E M x x = stdCls E M .isnan x := by
  simp only [fne, feq, stdCls, beq_self_eq_true, Bool.and_true, Bool.and_self, Bool.not_not]

/-- Masking with the exponent bits. -/
theorem and_inf_toNat (E M n : Nat) : n &&& ((2 ^ E - 1) * 2 ^ M) = n / 2 ^ M % 2 ^ E * 2 ^ M := by
  apply Nat.eq_of_testBit_eq
  intro i
  rw [Nat.testBit_and, Nat.mul_comm, Nat.mul_comm (n / 2 ^ M % 2 ^ E)]
  rw [Nat.testBit_two_pow_mul, Nat.testBit_two_pow_mul, Nat.testBit_two_pow_sub_one, Nat.testBit_mod_two_pow,
    Nat.testBit_div_two_pow]
  by_cases h : M ≤ i
  · rw [Nat.sub_add_cancel h]
    simp only [ge_iff_le, h, decide_true, Bool.true_and]
    rw [Bool.and_comm]
  · simp only [ge_iff_le, h, decide_false, Bool.false_and, Bool.and_false]

theorem exp_mask (E M : Nat) {k : Nat} (x c : BitVec k) (hc : c.toNat = infMag E M)
    (hE : 0 < E) :
    fneOrdered E M c (x &&& c) = stdCls E M .isfinite x := by
  have hM := Nat.two_pow_pos M
  have hEp : 1 < 2 ^ E := Nat.one_lt_two_pow (by omega)
  have hxc : (x &&& c).toNat = x.toNat / 2 ^ M % 2 ^ E * 2 ^ M := by
    rw [BitVec.toNat_and, hc, infMag, and_inf_toNat]
  have hq : x.toNat / 2 ^ M % 2 ^ E = mag E M x / 2 ^ M := by
    unfold mag
    rw [Nat.pow_add, Nat.mul_comm (2 ^ E), Nat.mod_mul_right_div_self]
  have hlt : mag E M x / 2 ^ M < 2 ^ E := by rw [← hq]; exact Nat.mod_lt _ (by omega)
  rw [hq] at hxc
  have hpow : (2:Nat) ^ (E + M) = 2 ^ E * 2 ^ M := Nat.pow_add ..
  have hle : ∀ q, q < 2 ^ E → q * 2 ^ M ≤ infMag E M := fun q hq => Nat.mul_le_mul_right _ (by omega)
  have hinf : infMag E M < 2 ^ (E + M) := by
    rw [hpow, infMag]; exact Nat.mul_lt_mul_of_pos_right (by omega) hM
  have magOf : ∀ (y : BitVec k), y.toNat ≤ infMag E M → mag E M y = y.toNat ∧ neg E M y = false := by
    intro y hy
    constructor
    · exact Nat.mod_eq_of_lt (by omega)
    · exact Nat.testBit_lt_two_pow (by omega)
  obtain ⟨hcm, hcn⟩ := magOf c (by omega)
  obtain ⟨hxm, hxn⟩ := magOf (x &&& c) (by rw [hxc]; exact hle _ hlt)
  have n1 : isNaN E M c = false := by unfold isNaN; rw [hcm, hc]; simp
  have n2 : isNaN E M (x &&& c) = false := by
    unfold isNaN; rw [hxm, hxc]; simp only [decide_eq_false_iff_not, Nat.not_lt]; exact hle _ hlt
  rw [Bool.eq_iff_iff]
  simp only [fneOrdered, n1, n2, Bool.not_false, Bool.true_and, bne_iff_ne, ne_eq, key, hcn, hxn, Bool.false_eq_true,
    if_false, stdCls, decide_eq_true_eq]
  rw [hcm, hxm, hc, hxc]
  have hd := Nat.div_add_mod (mag E M x) (2 ^ M)
  have hr := Nat.mod_lt (mag E M x) hM
  generalize hqq : mag E M x / 2 ^ M = q at *
  generalize mag E M x % 2 ^ M = r at *
  have hcomm : 2 ^ M * q = q * 2 ^ M := Nat.mul_comm ..
  constructor
  · intro hne
    by_cases hmax : q = 2 ^ E - 1
    · exact absurd (by rw [hmax, infMag]) hne
    · have h1 : (q + 1) * 2 ^ M ≤ infMag E M := Nat.mul_le_mul_right _ (by omega)
      rw [Nat.add_mul] at h1
      omega
  · intro hl heq
    have : infMag E M = q * 2 ^ M := by exact_mod_cast heq
    omega

/-- Equality with the two infinity patterns. -/
theorem inf_eq (E M : Nat) {k : Nat} (x p n : BitVec k) (hE : 0 < E) (hp : p.toNat = infMag E M)
    (hn : n.toNat = 2 ^ (E + M) + infMag E M) :
    (feq E M x p || feq E M x n) = stdCls E M .isinf x := by
  have hM := Nat.two_pow_pos M
  have hEp : 1 < 2 ^ E := Nat.one_lt_two_pow (by omega)
  have hinf : infMag E M < 2 ^ (E + M) := by
    rw [Nat.pow_add, infMag]; exact Nat.mul_lt_mul_of_pos_right (by omega) hM
  have hpos := infMag_pos M hE
  have pm : mag E M p = infMag E M := by unfold mag; rw [hp]; exact Nat.mod_eq_of_lt hinf
  have pn : neg E M p = false := by unfold neg; rw [hp]; exact Nat.testBit_lt_two_pow hinf
  have nm : mag E M n = infMag E M := by
    unfold mag; rw [hn, Nat.add_mod_left]; exact Nat.mod_eq_of_lt hinf
  have nn : neg E M n = true := by
    unfold neg; rw [hn, Nat.testBit_two_pow_add_eq, Nat.testBit_lt_two_pow hinf]; rfl
  have p1 : isNaN E M p = false := by unfold isNaN; rw [pm]; simp
  have n1 : isNaN E M n = false := by unfold isNaN; rw [nm]; simp
  rw [Bool.eq_iff_iff]
  simp only [feq, p1, n1, Bool.not_false, Bool.and_true, Bool.or_eq_true, Bool.and_eq_true, Bool.not_eq_true', beq_iff_eq,
    stdCls, key, pm, pn, nm, nn, Bool.false_eq_true, if_false, if_true, isNaN, decide_eq_false_iff_not]
  cases neg E M x <;> simp only [Bool.false_eq_true, if_false, if_true] <;> omega

/-- Agreement of the vector step, the tail and the strided loop. -/
def UOk {k : Nat} (f : BitVec k → Bool) : UKernel k → Prop
  | .fill b => ∀ x, f x = b
  | .slow sca => ∀ x, sca x = f x
  | .vec L step tail strided => 0 < L ∧ (∀ xs p j, j < L → step xs p j = boolByte (f (xs (p + j)))) ∧
      (∀ x, tail x = f x) ∧ ∀ x, strided x = f x

theorem UOk.out {k : Nat} {f : BitVec k → Bool} {K : UKernel k} (h : UOk f K) (c : Bool) (b : Nat)
    (xs : Nat → BitVec k) (i : Nat) : K.out c b xs i = boolByte (f (xs i)) := by
  cases K with
  | fill v => show boolByte v = _; rw [h (xs i)]
  | slow s => show boolByte (s (xs i)) = _; rw [h (xs i)]
  | vec L step tail strided =>
    obtain ⟨hL, hs, ht, hd⟩ := h
    show (if c = true then _ else _) = _
    split
    · split
      · rw [hs xs _ _ (Nat.mod_lt _ hL), Nat.div_add_mod]
      · rw [ht]
    · rw [hd]

theorem nanF32_ok : UOk (stdCls 8 23 .isnan) nanF32 := by
  refine ⟨by decide, fun xs p j hj => ?_, fun x => fne_self 8 23 x, fun _ => rfl⟩
  refine combFloat_byte (c := fun i => cmpLanes 32 (fne 8 23) (load 256 xs (p + 8 * i)) (load 256 xs (p + 8 * i)))
    (e := fun i => stdCls 8 23 .isnan (xs (p + i))) (fun t _ => ?_) hj
  refine (isSel_cmpLanes _ _ _).congr fun d hd => ?_
  rw [lane_load _ _ hd, fne_self]; simp only [Nat.add_assoc]

theorem nanF64_ok : UOk (stdCls 11 52 .isnan) nanF64 := by
  refine ⟨by decide, fun xs p j hj => ?_, fun x => fne_self 11 52 x, fun _ => rfl⟩
  refine combDouble_byte (c := fun i => cmpLanes 64 (fne 11 52) (load 128 xs (p + 2 * i)) (load 128 xs (p + 2 * i)))
    (e := fun i => stdCls 11 52 .isnan (xs (p + i))) (fun t _ => ?_) hj
  refine (isSel_cmpLanes _ _ _).congr fun d hd => ?_
  rw [lane_load _ _ hd, fne_self]; simp only [Nat.add_assoc]

theorem finiteF32_ok : UOk (stdCls 8 23 .isfinite) finiteF32 := by
  refine ⟨by decide, fun xs p j hj => ?_, fun _ => rfl, fun _ => rfl⟩
  show lane 8 (lut64 _) j = _
  rw [lut64_byte _ hj, getLsbD_movemask _ hj, isSel_cmpLanes _ _ _ j (by omega), msb_sel (by decide)]
  beta_reduce
  rw [lane_and,
    lane_load _ _ (by omega), finite32, lane_set1 _ (by omega), exp_mask 8 23 _ _ (by decide) (by decide)]

theorem finiteF64_ok : UOk (stdCls 11 52 .isfinite) finiteF64 := by
  refine ⟨by decide, fun xs p j hj => ?_, fun _ => rfl, fun _ => rfl⟩
  show lane 8 (lut32 _) j = _
  rw [lut32_byte _ hj, getLsbD_movemask _ hj, isSel_cmpLanes _ _ _ j (by omega), msb_sel (by decide)]
  beta_reduce
  rw [lane_and,
    lane_load _ _ (by omega), finite64, lane_set1 _ (by omega), exp_mask 11 52 _ _ (by decide) (by decide)]

theorem infF32_ok : UOk (stdCls 8 23 .isinf) infF32 := by
  refine ⟨by decide, fun xs p j hj => ?_, fun _ => rfl, fun _ => rfl⟩
  refine combFloat_byte (c := fun i => cmpLanes 32 (feq 8 23) (load 256 xs (p + 8 * i)) (set1 256 0x7F800000#32) |||
      cmpLanes 32 (feq 8 23) (load 256 xs (p + 8 * i)) (set1 256 0xFF800000#32))
    (e := fun i => stdCls 8 23 .isinf (xs (p + i))) (fun t _ => ?_) hj
  refine ((isSel_cmpLanes _ _ _).or (isSel_cmpLanes _ _ _)).congr fun d hd => ?_
  rw [lane_load _ _ hd, lane_set1 _ hd, lane_set1 _ hd, inf_eq 8 23 _ _ _ (by decide) (by decide) (by decide)]
  simp only [Nat.add_assoc]

theorem infF64_ok : UOk (stdCls 11 52 .isinf) infF64 := by
  refine ⟨by decide, fun xs p j hj => ?_, fun _ => rfl, fun _ => rfl⟩
  show lane 8 (lut32 _) j = _
  rw [lut32_byte _ hj, getLsbD_movemask _ hj,
    ((isSel_cmpLanes _ _ _).or (isSel_cmpLanes _ _ _)) j (by omega), msb_sel (by decide)]
  beta_reduce
  rw [lane_load _ _ (by omega), lane_set1 _ (by omega), lane_set1 _ (by omega),
    inf_eq 11 52 _ _ _ (by decide) (by decide) (by decide)]

end Pnumpy.Classify
