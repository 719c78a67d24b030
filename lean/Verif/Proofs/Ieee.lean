import Verif.Model.Ieee
import Verif.Spec.Value
/-
The sign-magnitude comparison of bit patterns is the comparison of the IEEE values.
-/
namespace Pnumpy.Ieee
open Pnumpy.Spec

/-- Scaled value of a magnitude pattern. -/
def smag (M m : Nat) : Nat :=
  if m / 2 ^ M = 0 then m % 2 ^ M else (2 ^ M + m % 2 ^ M) * 2 ^ (m / 2 ^ M - 1)

theorem smag_step (M m : Nat) : smag M m < smag M (m + 1) := by
  have hP : 0 < 2 ^ M := Nat.two_pow_pos M
  unfold smag
  generalize 2 ^ M = P at *
  have hm := Nat.div_add_mod m P
  have hlt := Nat.mod_lt m hP
  by_cases h : m % P + 1 < P
  · have e1 : (m + 1) / P = m / P := by
      rw [Nat.div_eq_iff hP]
      have : P * (m / P) + m % P = m := hm
      rw [Nat.mul_comm] at this
      omega
    have e2 : (m + 1) % P = m % P + 1 := by
      rw [Nat.add_mod, Nat.mod_eq_of_lt (show 1 < P by omega), Nat.mod_eq_of_lt h]
    rw [e1, e2]
    split
    · omega
    · have : 0 < 2 ^ (m / P - 1) := Nat.two_pow_pos _
      exact Nat.mul_lt_mul_of_pos_right (by omega) this
  · have hf : m % P = P - 1 := by omega
    have e1 : (m + 1) / P = m / P + 1 := by
      rw [Nat.div_eq_iff hP]
      have : P * (m / P) + m % P = m := hm
      rw [Nat.mul_comm] at this
      rw [Nat.add_mul]
      omega
    have e2 : (m + 1) % P = 0 := by
      have h1 := Nat.div_add_mod (m + 1) P
      rw [e1, Nat.mul_add] at h1
      omega
    rw [e1, e2, hf, if_neg (Nat.succ_ne_zero _)]
    by_cases h0 : m / P = 0
    · rw [if_pos h0, h0]; simp; omega
    · rw [if_neg h0]
      obtain ⟨q, hq⟩ : ∃ q, m / P = q + 1 := Nat.exists_eq_succ_of_ne_zero h0
      rw [hq]
      simp only [Nat.add_sub_cancel]
      rw [Nat.pow_succ, Nat.add_zero, Nat.mul_comm (2 ^ q) 2, ← Nat.mul_assoc]
      exact Nat.mul_lt_mul_of_pos_right (by omega) (Nat.two_pow_pos _)

theorem smag_mono (M : Nat) {a b : Nat} (h : a < b) : smag M a < smag M b := by
  induction b with
  | zero => omega
  | succ n ih =>
    by_cases he : a = n
    · subst he; exact smag_step M a
    · exact Nat.lt_trans (ih (by omega)) (smag_step M n)

theorem smag_lt_iff (M a b : Nat) : smag M a < smag M b ↔ a < b := by
  constructor
  · intro h
    rcases Nat.lt_trichotomy a b with h1 | h1 | h1
    · exact h1
    · subst h1; omega
    · have := smag_mono M h1; omega
  · exact smag_mono M

theorem smag_zero (M : Nat) : smag M 0 = 0 := by simp [smag]

/-- `floatValue` in terms of sign and magnitude pattern. -/
theorem floatValue_eq (E M : Nat) {k : Nat} (x : BitVec k) :
    floatValue E M x =
      if infMag E M < mag E M x then .nan
      else if mag E M x = infMag E M then (if neg E M x then .ninf else .pinf)
      else .fin (if neg E M x then -(smag M (mag E M x) : Int) else (smag M (mag E M x) : Int)) := by
  have hs : (x.toNat / 2 ^ (E + M) % 2 = 1) ↔ neg E M x = true := by
    unfold neg
    rw [Nat.testBit_eq_decide_div_mod_eq]
    simp
  have hf : x.toNat % 2 ^ M = mag E M x % 2 ^ M := by
    unfold mag
    rw [Nat.pow_add, Nat.mul_comm, Nat.mod_mul_right_mod]
  have he : x.toNat / 2 ^ M % 2 ^ E = mag E M x / 2 ^ M := by
    unfold mag
    rw [Nat.pow_add, Nat.mul_comm (2 ^ E), Nat.mod_mul_right_div_self]
  have hlt : mag E M x / 2 ^ M < 2 ^ E := by
    rw [← he]; exact Nat.mod_lt _ (Nat.two_pow_pos _)
  have hP : 0 < 2 ^ M := Nat.two_pow_pos M
  have hE : 0 < 2 ^ E := Nat.two_pow_pos E
  have hd := Nat.div_add_mod (mag E M x) (2 ^ M)
  have hfl := Nat.mod_lt (mag E M x) hP
  have hinf : infMag E M = 2 ^ M * (2 ^ E - 1) := by rw [infMag, Nat.mul_comm]
  unfold floatValue
  simp only [he, hf]
  generalize hq : mag E M x / 2 ^ M = q at *
  generalize hr : mag E M x % 2 ^ M = r at *
  by_cases hmax : q = 2 ^ E - 1
  · rw [if_pos hmax]
    subst hmax
    by_cases hr0 : r = 0
    · rw [if_neg (show ¬ (r ≠ 0) from fun h => h hr0), if_neg (show ¬ (infMag E M < mag E M x) by omega),
        if_pos (show mag E M x = infMag E M by omega)]
      by_cases hn : neg E M x = true
      · rw [if_pos (hs.mpr hn), if_pos hn]
      · rw [if_neg (fun h => hn (hs.mp h)), if_neg hn]
    · rw [if_pos hr0, if_pos (show infMag E M < mag E M x by omega)]
  · rw [if_neg hmax]
    have hle : 2 ^ M * (q + 1) ≤ 2 ^ M * (2 ^ E - 1) := Nat.mul_le_mul_left _ (by omega)
    rw [Nat.mul_add] at hle
    rw [if_neg (show ¬ (infMag E M < mag E M x) by omega), if_neg (show ¬ (mag E M x = infMag E M) by omega)]
    have hsm : smag M (mag E M x) = if q = 0 then r else (2 ^ M + r) * 2 ^ (q - 1) := by
      unfold smag; rw [hq, hr]
    rw [hsm]
    by_cases hn : neg E M x = true
    · rw [if_pos (hs.mpr hn), if_pos hn]
    · rw [if_neg (fun h => hn (hs.mp h)), if_neg hn]

theorem isNaN_iff (E M : Nat) {k : Nat} (x : BitVec k) :
    isNaN E M x = true ↔ floatValue E M x = .nan := by
  rw [floatValue_eq]
  unfold isNaN
  by_cases h : infMag E M < mag E M x
  · simp [h]
  · simp only [h, decide_false, if_false]
    constructor
    · intro h; simp at h
    · intro h'
      split at h'
      · split at h' <;> cases h'
      · cases h'

theorem infMag_pos {E : Nat} (M : Nat) (hE : 0 < E) : 0 < infMag E M := by
  unfold infMag
  have : 1 < 2 ^ E := Nat.one_lt_two_pow (by omega)
  exact Nat.mul_pos (by omega) (Nat.two_pow_pos M)

/-- `flt` is the order of the values. -/
theorem flt_iff (E M : Nat) (hE : 0 < E) {k : Nat} (x y : BitVec k) :
    flt E M x y = true ↔ (floatValue E M x).lt (floatValue E M y) := by
  rw [floatValue_eq, floatValue_eq]
  unfold flt isNaN key
  have h1 := smag_lt_iff M (mag E M x) (mag E M y)
  have h2 := smag_lt_iff M (mag E M y) (mag E M x)
  have h3 := smag_lt_iff M 0 (mag E M x)
  have h4 := smag_lt_iff M 0 (mag E M y)
  rw [smag_zero] at h3 h4
  have hI := infMag_pos M hE
  generalize mag E M x = a at *
  generalize mag E M y = b at *
  generalize infMag E M = I at *
  by_cases hx : I < a
  · simp [hx, Value.lt]
  · by_cases hy : I < b
    · simp only [hx, hy, decide_true, decide_false, if_true, if_false, Bool.not_false, Bool.not_true,
        Bool.false_and, Bool.and_false, Bool.false_eq_true, false_iff]
      intro h
      split at h
      · split at h <;> simp [Value.lt] at h
      · simp [Value.lt] at h
    · simp only [hx, hy, decide_false, if_false, Bool.not_false, Bool.true_and, decide_eq_true_eq]
      cases neg E M x <;> cases neg E M y <;> simp only [if_true, if_false, Bool.false_eq_true] <;>
        by_cases ha : a = I <;> by_cases hb : b = I <;>
        simp only [ha, hb, if_true, if_false, Value.lt, iff_true, iff_false] <;> (try subst ha) <;> (try subst hb) <;> omega

/-- `feq` is equality of the values. -/
theorem feq_iff (E M : Nat) (hE : 0 < E) {k : Nat} (x y : BitVec k) :
    feq E M x y = true ↔ (floatValue E M x).eq (floatValue E M y) := by
  rw [floatValue_eq, floatValue_eq]
  unfold feq isNaN key
  have h1 := smag_lt_iff M (mag E M x) (mag E M y)
  have h2 := smag_lt_iff M (mag E M y) (mag E M x)
  have h3 := smag_lt_iff M 0 (mag E M x)
  have h4 := smag_lt_iff M 0 (mag E M y)
  rw [smag_zero] at h3 h4
  have hI := infMag_pos M hE
  generalize mag E M x = a at *
  generalize mag E M y = b at *
  generalize infMag E M = I at *
  by_cases hx : I < a
  · simp [hx, Value.eq]
  · by_cases hy : I < b
    · simp only [hx, hy, decide_true, decide_false, if_true, if_false, Bool.not_false, Bool.not_true,
        Bool.false_and, Bool.and_false, Bool.false_eq_true, false_iff]
      intro h
      split at h
      · split at h <;> simp [Value.eq] at h
      · simp [Value.eq] at h
    · simp only [hx, hy, decide_false, if_false, Bool.not_false, Bool.true_and, beq_iff_eq]
      cases neg E M x <;> cases neg E M y <;> simp only [if_true, if_false, Bool.false_eq_true] <;>
        by_cases ha : a = I <;> by_cases hb : b = I <;>
        simp only [ha, hb, if_true, if_false, Value.eq, Value.fin.injEq, reduceCtorEq, iff_true, iff_false] <;>
        (try subst ha) <;> (try subst hb) <;> omega

theorem fle_iff (E M : Nat) (hE : 0 < E) {k : Nat} (x y : BitVec k) :
    fle E M x y = true ↔ (floatValue E M x).lt (floatValue E M y) ∨ (floatValue E M x).eq (floatValue E M y) := by
  rw [← flt_iff E M hE, ← feq_iff E M hE]
  unfold fle flt feq
  cases isNaN E M x <;> cases isNaN E M y <;> simp <;> omega

end Pnumpy.Ieee
