import Verif.Model.IntOps
/-
Property theorems C12 and C16: exact integer semantics of the scalar / per-lane operations.
`x.toInt` is the value of a signed element, `x.toNat` of an unsigned one; `Int.bmod z (2^k)` is `z`
wrapped into the signed `k`-bit range.
-/
namespace Pnumpy.Props
open Pnumpy.IntOps

/-- **C12**: the emulated vector multiply is the exact product modulo 2^64. -/
theorem C12_mul_exact (x y : BitVec 64) : (mulU64 x y).toNat = x.toNat * y.toNat % 2 ^ 64 := by
  have hx := x.isLt
  have hy := y.isLt
  have hand : ∀ z : BitVec 64, (z &&& 0xFFFFFFFF#64).toNat = z.toNat % 4294967296 := by
    intro z
    rw [BitVec.toNat_and]
    exact Nat.and_two_pow_sub_one_eq_mod z.toNat 32
  unfold mulU64 mulEpu32
  simp only [BitVec.toNat_add, BitVec.toNat_mul, BitVec.toNat_shiftLeft, BitVec.toNat_setWidth, hand,
    BitVec.toNat_ushiftRight, Nat.shiftRight_eq_div_pow, Nat.shiftLeft_eq]
  generalize x.toNat = a at *
  generalize y.toNat = b at *
  have ea := Nat.div_add_mod a 4294967296
  have eb := Nat.div_add_mod b 4294967296
  have ha0 : a % 4294967296 < 4294967296 := Nat.mod_lt _ (by omega)
  have hb0 : b % 4294967296 < 4294967296 := Nat.mod_lt _ (by omega)
  have ha1 : a / 4294967296 < 4294967296 := by omega
  have hb1 : b / 4294967296 < 4294967296 := by omega
  generalize a % 4294967296 = al at *
  generalize b % 4294967296 = bl at *
  generalize a / 4294967296 = ah at *
  generalize b / 4294967296 = bh at *
  have h1 : al % 2 ^ 32 % 2 ^ 64 = al := by omega
  have h2 : bl % 2 ^ 32 % 2 ^ 64 = bl := by omega
  have h3 : ah % 2 ^ 32 % 2 ^ 64 = ah := by omega
  have h4 : bh % 2 ^ 32 % 2 ^ 64 = bh := by omega
  have hp : a * b = al * bl + al * bh * 4294967296 + bl * ah * 4294967296 +
      18446744073709551616 * (ah * bh) := by
    rw [← ea, ← eb]
    simp only [Nat.add_mul, Nat.mul_add]
    have e1 : 4294967296 * ah * (4294967296 * bh) = 18446744073709551616 * (ah * bh) := by
      rw [Nat.mul_mul_mul_comm]
    have e2 : 4294967296 * ah * bl = bl * ah * 4294967296 := by
      rw [Nat.mul_assoc, Nat.mul_comm, Nat.mul_comm ah bl]
    have e3 : al * (4294967296 * bh) = al * bh * 4294967296 := by
      rw [Nat.mul_left_comm, Nat.mul_comm]
    omega
  have hs : (2 : Nat) ^ 64 = 18446744073709551616 := rfl
  simp only [hs] at *
  simp only [h1, h2, h3, h4]
  rw [hp]
  generalize al * bl = p
  generalize al * bh = q
  generalize bl * ah = r
  generalize ah * bh = t
  omega

/-- ... hence equal to the scalar tail's `*` (`MulOp<uint64_t>`), bit for bit. -/
theorem C12_vector_equals_scalar (x y : BitVec 64) : mulU64 x y = mulOp x y := by
  apply BitVec.eq_of_toNat_eq
  rw [C12_mul_exact]
  simp [mulOp, BitVec.toNat_mul]

/-- **C16**: wrap-around arithmetic on signed elements. -/
theorem C16_add (k : Nat) (x y : BitVec k) : (addOp x y).toInt = (x.toInt + y.toInt).bmod (2 ^ k) :=
  BitVec.toInt_add x y
theorem C16_sub (k : Nat) (x y : BitVec k) : (subOp x y).toInt = (x.toInt - y.toInt).bmod (2 ^ k) :=
  BitVec.toInt_sub
theorem C16_mul (k : Nat) (x y : BitVec k) : (mulOp x y).toInt = (x.toInt * y.toInt).bmod (2 ^ k) :=
  BitVec.toInt_mul x y
/-- ... and on unsigned elements. -/
theorem C16_add_unsigned (k : Nat) (x y : BitVec k) : (addOp x y).toNat = (x.toNat + y.toNat) % 2 ^ k :=
  BitVec.toNat_add x y
theorem C16_mul_unsigned (k : Nat) (x y : BitVec k) : (mulOp x y).toNat = (x.toNat * y.toNat) % 2 ^ k :=
  BitVec.toNat_mul x y

/-- **C16**: minimum and maximum. -/
theorem C16_minmax (k : Nat) (x y : BitVec k) :
    (sminOp x y).toInt = min x.toInt y.toInt ∧ (smaxOp x y).toInt = max x.toInt y.toInt ∧
    (uminOp x y).toNat = min x.toNat y.toNat ∧ (umaxOp x y).toNat = max x.toNat y.toNat := by
  refine ⟨?_, ?_, ?_, ?_⟩
  · unfold sminOp; rw [BitVec.slt_eq_decide]
    by_cases h : x.toInt < y.toInt <;> simp [h] <;> omega
  · unfold smaxOp; rw [BitVec.slt_eq_decide]
    by_cases h : y.toInt < x.toInt <;> simp [h] <;> omega
  · unfold uminOp; rw [BitVec.ult_eq_decide]
    by_cases h : x.toNat < y.toNat <;> simp [h] <;> omega
  · unfold umaxOp; rw [BitVec.ult_eq_decide]
    by_cases h : y.toNat < x.toNat <;> simp [h] <;> omega

/-- **C16**: negation and absolute value wrap only for the most negative value. -/
theorem C16_neg (k : Nat) (x : BitVec k) :
    (negOp x).toInt = (-x.toInt).bmod (2 ^ k) ∧ negVecOp x = negOp x := by
  refine ⟨BitVec.toInt_neg, ?_⟩
  simp [negVecOp, negOp]

theorem C16_abs (k : Nat) (x : BitVec k) :
    (absOp x).toInt = ((x.toInt.natAbs : Int)).bmod (2 ^ k) := by
  unfold absOp
  rw [BitVec.slt_eq_decide]
  simp only [BitVec.ofNat_eq_ofNat, BitVec.toInt_zero, decide_eq_true_eq]
  split
  · rename_i h
    rw [BitVec.toInt_neg]
    congr 1
    omega
  · rename_i h
    rw [show (x.toInt.natAbs : Int) = x.toInt by omega]
    exact (BitVec.toInt_bmod_cancel x).symm

/-- `abs` is the mathematical absolute value except for the most negative value, which it returns. -/
theorem C16_abs_exact (k : Nat) (x : BitVec k) (h : -(2 : Int) ^ (k - 1) < x.toInt) :
    (absOp x).toInt = (x.toInt.natAbs : Int) := by
  rw [C16_abs]
  have h2 := BitVec.toInt_lt (x := x)
  have h1 := BitVec.le_toInt x
  cases k with
  | zero => simp [BitVec.of_length_zero]
  | succ k =>
    rw [Int.bmod_eq_of_le]
    · simp only [Nat.add_one_sub_one] at *
      rw [Nat.pow_succ]
      have : (2 : Int) ^ k = ((2 ^ k : Nat) : Int) := by simp
      omega
    · simp only [Nat.add_one_sub_one] at *
      rw [Nat.pow_succ]
      have : (2 : Int) ^ k = ((2 ^ k : Nat) : Int) := by simp
      omega

example : absOp (BitVec.intMin 8) = BitVec.intMin 8 := by decide

/-- **C16**: sign. -/
theorem C16_sign (k : Nat) (hk : 2 ≤ k) (x : BitVec k) : (signOp x).toInt = x.toInt.sign := by
  unfold signOp
  rw [BitVec.slt_eq_decide, BitVec.slt_eq_decide]
  simp only [BitVec.ofNat_eq_ofNat, BitVec.toInt_zero, decide_eq_true_eq]
  have h1 : (1#k).toInt = 1 := BitVec.toInt_one (by omega)
  split
  · rename_i h
    rw [h1, Int.sign_eq_one_of_pos h]
  · split
    · rename_i h1' h
      rw [Int.sign_eq_neg_one_of_neg h, BitVec.toInt_neg, h1]
      obtain ⟨j, rfl⟩ : ∃ j, k = j + 2 := ⟨k - 2, by omega⟩
      have : 0 < 2 ^ j := Nat.pow_pos (by omega)
      rw [Int.bmod_eq_of_le] <;> rw [Nat.pow_succ, Nat.pow_succ] <;> omega
    · rename_i h1 h2
      have : x.toInt = 0 := by omega
      simp [this]

/-- Case: np.sign of int32 -7. -/
example : (signOp (-7#32)).toInt = -1 := (C16_sign 32 (by decide) (-7#32)).trans (by decide)

/-- **C16**: bitwise operations act bit by bit. -/
theorem C16_bitwise (k : Nat) (x y : BitVec k) (i : Nat) (hi : i < k) :
    (andOp x y).getLsbD i = (x.getLsbD i && y.getLsbD i) ∧
    (orOp x y).getLsbD i = (x.getLsbD i || y.getLsbD i) ∧
    (xorOp x y).getLsbD i = (x.getLsbD i != y.getLsbD i) ∧
    (andNotOp x y).getLsbD i = (!x.getLsbD i && y.getLsbD i) ∧
    (invertOp x).getLsbD i = !x.getLsbD i := by
  refine ⟨?_, ?_, ?_, ?_, ?_⟩ <;> simp [andOp, orOp, xorOp, andNotOp, invertOp, hi]

/-- Case: bit 3 of 12 and 10 (int8). -/
example := C16_bitwise 8 12#8 10#8 3 (by decide)

/-- `invert` is `-x - 1`. -/
theorem C16_invert (k : Nat) (hk : 0 < k) (x : BitVec k) : (invertOp x).toInt = -x.toInt - 1 := by
  unfold invertOp
  have h := x.isLt
  rw [BitVec.toInt_eq_toNat_cond, BitVec.toInt_eq_toNat_cond, BitVec.toNat_not]
  obtain ⟨j, rfl⟩ : ∃ j, k = j + 1 := ⟨k - 1, by omega⟩
  rw [Nat.pow_succ] at *
  split <;> split <;> omega

/-- Case: ~5 = -6 in int16. -/
example : (invertOp 5#16).toInt = -6 := (C16_invert 16 (by decide) 5#16).trans (by decide)

theorem fdiv_eq_adjust (a b : Int) (hb : b ≠ 0) :
    a.fdiv b = if (a < 0) = (b < 0) then a.tdiv b else if a.tmod b ≠ 0 then a.tdiv b - 1 else a.tdiv b := by
  by_cases ha : a < 0 <;> by_cases hb' : b < 0
  · simp only [ha, hb', if_true]
    obtain ⟨n, rfl⟩ : ∃ n : Nat, a = -((n : Nat) : Int) := ⟨a.natAbs, by omega⟩
    obtain ⟨d, rfl⟩ : ∃ d : Nat, b = -((d : Nat) : Int) := ⟨b.natAbs, by omega⟩
    rw [Int.neg_fdiv_neg, Int.neg_tdiv, Int.tdiv_neg, Int.neg_neg, Int.fdiv_eq_tdiv_of_nonneg (by omega) (by omega)]
  · have hs : b.sign = 1 := Int.sign_eq_one_of_pos (by omega)
    rw [if_neg (by simp [ha, hb']), Int.fdiv_eq_tdiv, hs]
    by_cases hd : b ∣ a
    · rw [if_pos hd, Int.tmod_eq_zero_of_dvd hd]; simp
    · have : a.tmod b ≠ 0 := fun h => hd (Int.dvd_of_tmod_eq_zero h)
      rw [if_pos this, if_neg hd, if_neg (by omega), if_pos (by omega)]
  · rw [if_neg (by simp [ha, hb']), Int.fdiv_eq_tdiv]
    by_cases hd : b ∣ a
    · rw [if_pos hd, Int.tmod_eq_zero_of_dvd hd]; simp
    · have : a.tmod b ≠ 0 := fun h => hd (Int.dvd_of_tmod_eq_zero h)
      rw [if_pos this, if_neg hd, if_pos (by omega), if_neg (by omega)]
  · simp only [ha, hb', if_true]
    exact Int.fdiv_eq_tdiv_of_nonneg (by omega) (by omega)

/-- **C16**: floor division on signed elements rounds towards minus infinity, division by zero gives 0,
and only `INT_MIN // -1` wraps. -/
theorem C16_floor_divide (k : Nat) (x y : BitVec k) :
    (sfloorDivOp x y).toInt = if y.toInt = 0 then 0 else (x.toInt.fdiv y.toInt).bmod (2 ^ k) := by
  unfold sfloorDivOp
  have h0 : y = 0 ↔ y.toInt = 0 := by
    constructor
    · rintro rfl; simp
    · intro h; apply BitVec.eq_of_toInt_eq; simpa using h
  by_cases hy : y = 0
  · rw [if_neg (by simpa using hy), if_pos (h0.mp hy)]
    simp
  · have hy' : ¬ y.toInt = 0 := fun h => hy (h0.mpr h)
    rw [if_pos hy, if_neg hy', fdiv_eq_adjust _ _ hy']
    have hr : x.srem y ≠ 0 ↔ x.toInt.tmod y.toInt ≠ 0 := by
      rw [← BitVec.toInt_srem]
      constructor
      · intro h he; exact h (BitVec.eq_of_toInt_eq (by simpa using he))
      · intro h he; rw [he] at h; simp at h
    have hc : (x.slt 0 = y.slt 0) ↔ ((x.toInt < 0) = (y.toInt < 0)) := by
      rw [BitVec.slt_eq_decide, BitVec.slt_eq_decide]
      simp
    by_cases h1 : x.slt 0 = y.slt 0
    · rw [if_pos h1, if_pos (hc.mp h1), BitVec.toInt_sdiv]
    · rw [if_neg h1, if_neg (fun h => h1 (hc.mpr h))]
      by_cases h2 : x.srem y ≠ 0
      · rw [if_pos h2, if_pos (hr.mp h2), BitVec.toInt_sub, BitVec.toInt_sdiv]
        rw [Int.bmod_sub_bmod]
        cases k with
        | zero => simp
        | succ k =>
          have h1 : ((1 : BitVec (k + 1)).toInt) = Int.bmod 1 (2 ^ (k + 1)) := by
            rw [BitVec.toInt_eq_toNat_bmod]; simp
          rw [h1, Int.sub_bmod_bmod]
      · rw [if_neg h2, if_neg (fun h => h2 (hr.mpr h)), BitVec.toInt_sdiv]

/-- ... and on unsigned elements. -/
theorem C16_floor_divide_unsigned (k : Nat) (x y : BitVec k) :
    (ufloorDivOp x y).toNat = x.toNat / y.toNat := by
  unfold ufloorDivOp
  by_cases hy : y = 0
  · subst hy; simp
  · rw [if_pos hy]; exact BitVec.toNat_udiv

/-- logical negation of a boolean byte. -/
theorem C16_invert_bool (b : Bool) :
    invertBoolOp (if b then 1 else 0) = (if b then 0 else 1) := by
  cases b <;> decide

theorem C16_not (k : Nat) (x : BitVec k) : notOp x = true ↔ x.toNat = 0 := by
  unfold notOp
  rw [beq_iff_eq]
  constructor
  · rintro rfl; simp
  · intro h; apply BitVec.eq_of_toNat_eq; simpa using h

end Pnumpy.Props
