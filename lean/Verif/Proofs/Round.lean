import Verif.Props.TrigValues
import Verif.Spec.Accuracy
import Mathlib.Data.Real.Basic
import Mathlib.Tactic.Linarith
import Mathlib.Tactic.Ring
import Mathlib.Tactic.FieldSimp
import Mathlib.Tactic.Positivity
import Mathlib.Algebra.Order.Floor.Ring
/-
Rounding to nearest as a relative error: from "no float is closer" to the standard model of floating-point arithmetic.
-/
namespace Pnumpy.Props
open Spec Ieee

/-- `n * 2^t` is the magnitude of a pattern when `n` has at most `M + 1` bits. -/
theorem smag_dyadic (M : Nat) : ∀ (t n : Nat), n < 2 ^ (M + 1) → ∃ m, smag M m = n * 2 ^ t ∧ m < (t + 2) * 2 ^ M := by
  intro t
  have hP : 0 < 2 ^ M := Nat.two_pow_pos M
  induction t with
  | zero =>
    intro n hn
    rw [Nat.pow_succ] at hn
    by_cases h : n < 2 ^ M
    · refine ⟨n, ?_, by omega⟩
      unfold smag
      rw [Nat.div_eq_of_lt h, if_pos rfl, Nat.mod_eq_of_lt h]; simp
    · refine ⟨n, ?_, by omega⟩
      have hd : n / 2 ^ M = 1 := by
        rw [Nat.div_eq_iff hP]; omega
      have hm := Nat.div_add_mod n (2 ^ M)
      unfold smag
      rw [hd] at hm ⊢
      simp only [Nat.one_ne_zero, if_false, Nat.sub_self]
      rw [Nat.mul_one] at hm
      rw [hm]
  | succ t ih =>
    intro n hn
    by_cases h : n < 2 ^ M
    · obtain ⟨m, h1, h2⟩ := ih (2 * n) (by rw [Nat.pow_succ]; omega)
      refine ⟨m, by rw [h1, Nat.pow_succ]; ring, Nat.lt_of_lt_of_le h2 (Nat.mul_le_mul_right _ (by omega))⟩
    · rw [Nat.pow_succ] at hn
      have e : ((t + 1 + 1) * 2 ^ M + (n - 2 ^ M)) / 2 ^ M = t + 1 + 1 := by
        rw [Nat.mul_comm, Nat.mul_add_div hP, Nat.div_eq_of_lt (by omega)]
      have e' : ((t + 1 + 1) * 2 ^ M + (n - 2 ^ M)) % 2 ^ M = n - 2 ^ M := by
        rw [Nat.mul_comm, Nat.mul_add_mod, Nat.mod_eq_of_lt (by omega)]
      refine ⟨(t + 1 + 1) * 2 ^ M + (n - 2 ^ M), ?_, ?_⟩
      · unfold smag
        rw [e, e', if_neg (by omega), Nat.add_sub_cancel, Nat.add_sub_cancel' (by omega)]
      · have : (t + 1 + 2) * 2 ^ M = (t + 1 + 1) * 2 ^ M + 2 ^ M := by ring
        omega

/-- `± n * 2^t` is a float when `n` has at most `M + 1` bits. -/
theorem dyadic_is_float {E M k : Nat} (h : Fmt E M k) (n : Int) (t : Nat) (hn : n.natAbs ≤ 2 ^ (M + 1)) (ht : t + 4 ≤ 2 ^ E) :
    ∃ s : BitVec k, floatValue E M s = .fin (n * 2 ^ t) := by
  have key : ∃ m, smag M m = n.natAbs * 2 ^ t ∧ m < (t + 3) * 2 ^ M := by
    by_cases hlt : n.natAbs < 2 ^ (M + 1)
    · obtain ⟨m, h1, h2⟩ := smag_dyadic M t n.natAbs hlt
      exact ⟨m, h1, Nat.lt_of_lt_of_le h2 (Nat.mul_le_mul_right _ (by omega))⟩
    · obtain ⟨m, h1, h2⟩ := smag_dyadic M (t + 1) (2 ^ M) (Nat.pow_lt_pow_right (by decide) (by omega))
      refine ⟨m, ?_, h2⟩
      rw [h1, show n.natAbs = 2 ^ (M + 1) by omega, Nat.pow_succ, Nat.pow_succ]; ring
  obtain ⟨m, h1, h2⟩ := key
  have hinf : m < infMag E M := Nat.lt_of_lt_of_le h2 (Nat.mul_le_mul_right _ (by omega))
  obtain ⟨s, hs1, hs2⟩ := exists_pattern h (decide (n < 0)) m (by
    refine Nat.lt_of_lt_of_le hinf ?_
    unfold infMag
    rw [Nat.pow_add]
    exact Nat.mul_le_mul_right _ (Nat.sub_le _ _))
  refine ⟨s, ?_⟩
  rw [value_of_mag s (by rw [hs1]; exact hinf), hs1, hs2, h1]
  congr 1
  have e : ((n.natAbs * 2 ^ t : Nat) : Int) = n.natAbs * 2 ^ t := by push_cast; rfl
  rw [e]
  by_cases hneg : n < 0
  · rw [if_pos (by simpa using hneg), ← Int.neg_mul]; congr 1; omega
  · rw [if_neg (by simpa using hneg)]; congr 1; omega

/-- The same up to the largest finite number. -/
theorem dyadic_is_float_lt {E M k : Nat} (h : Fmt E M k) (n : Int) (t : Nat) (hn : n.natAbs < 2 ^ (M + 1)) (ht : t + 3 ≤ 2 ^ E) :
    ∃ s : BitVec k, floatValue E M s = .fin (n * 2 ^ t) := by
  obtain ⟨m, h1, h2⟩ := smag_dyadic M t n.natAbs hn
  have hinf : m < infMag E M := Nat.lt_of_lt_of_le h2 (Nat.mul_le_mul_right _ (by omega))
  obtain ⟨s, hs1, hs2⟩ := exists_pattern h (decide (n < 0)) m (by
    refine Nat.lt_of_lt_of_le hinf ?_
    unfold infMag
    rw [Nat.pow_add]
    exact Nat.mul_le_mul_right _ (Nat.sub_le _ _))
  refine ⟨s, ?_⟩
  rw [value_of_mag s (by rw [hs1]; exact hinf), hs1, hs2, h1]
  congr 1
  have e : ((n.natAbs * 2 ^ t : Nat) : Int) = n.natAbs * 2 ^ t := by push_cast; rfl
  rw [e]
  by_cases hneg : n < 0
  · rw [if_pos (by simpa using hneg), ← Int.neg_mul]; congr 1; omega
  · rw [if_neg (by simpa using hneg)]; congr 1; omega

/-- Some `n * 2^t` with an `M + 1` bit `n` is within half a unit in the last place of `num / den` (or within one, below the normal range). -/
theorem dyadic_near (M num den : Nat) (hd : 0 < den) : ∃ n t : Nat, n ≤ 2 ^ (M + 1) ∧ (t = 0 ∨ 2 ^ (M + t) * den ≤ num) ∧
    2 ^ (M + 1) * ((num : Int) - (n * 2 ^ t : Nat) * den).natAbs ≤ num + 2 ^ (M + 1) * den := by
  have hP : 0 < 2 ^ M := Nat.two_pow_pos M
  by_cases hq : num / den < 2 ^ (M + 1)
  · refine ⟨num / den, 0, by omega, Or.inl rfl, ?_⟩
    have h1 := Nat.div_add_mod num den
    have h2 := Nat.mod_lt num hd
    have h3 : ((num : Int) - ((num / den * 2 ^ 0 : Nat) : Int) * den).natAbs = num % den := by
      have : ((num / den * 2 ^ 0 : Nat) : Int) * den = ((den * (num / den) : Nat) : Int) := by push_cast; ring
      rw [this]; omega
    rw [h3]
    have : 2 ^ (M + 1) * (num % den) ≤ 2 ^ (M + 1) * den := Nat.mul_le_mul_left _ (by omega)
    omega
  · have hq0 : num / den ≠ 0 := by have := Nat.two_pow_pos (M + 1); omega
    obtain ⟨t, ht⟩ : ∃ t, (num / den).log2 = M + t := by
      have : M ≤ (num / den).log2 := (Nat.le_log2 hq0).mpr (by rw [Nat.pow_succ] at hq; omega)
      exact ⟨(num / den).log2 - M, by omega⟩
    have l1 : 2 ^ (M + t) ≤ num / den := by rw [← ht]; exact Nat.log2_self_le hq0
    have l2 : num / den < 2 ^ (M + t + 1) := by rw [← ht]; exact Nat.lt_log2_self
    have hT : 0 < 2 ^ t := Nat.two_pow_pos t
    have hD : 0 < den * 2 ^ t := Nat.mul_pos hd hT
    have e0 : num / (den * 2 ^ t) = num / den / 2 ^ t := (Nat.div_div_eq_div_mul ..).symm
    have n1 : 2 ^ M ≤ num / (den * 2 ^ t) := by
      rw [e0, Nat.le_div_iff_mul_le hT, ← Nat.pow_add]; exact l1
    have n2 : num / (den * 2 ^ t) < 2 ^ (M + 1) := by
      rw [e0, Nat.div_lt_iff_lt_mul hT, ← Nat.pow_add, show M + 1 + t = M + t + 1 by omega]; exact l2
    have h1 := Nat.div_add_mod num (den * 2 ^ t)
    have h2 := Nat.mod_lt num hD
    have hb : 2 ^ (M + t) * den ≤ num := by
      have := Nat.mul_le_of_le_div _ _ _ l1
      exact this
    have hmul : 2 ^ M * (den * 2 ^ t) ≤ num := by
      have : 2 ^ M * (den * 2 ^ t) = 2 ^ (M + t) * den := by rw [Nat.pow_add]; ring
      omega
    generalize hn0 : num / (den * 2 ^ t) = n0 at *
    generalize hr : num % (den * 2 ^ t) = r at *
    have hp2 : ∀ x, 2 ^ (M + 1) * x = 2 * (2 ^ M * x) := fun x => by rw [Nat.pow_succ]; ring
    by_cases hh : 2 * r ≤ den * 2 ^ t
    · refine ⟨n0, t, by omega, Or.inr hb, ?_⟩
      have : ((num : Int) - ((n0 * 2 ^ t : Nat) : Int) * den).natAbs = r := by
        have : ((n0 * 2 ^ t : Nat) : Int) * den = ((den * 2 ^ t * n0 : Nat) : Int) := by push_cast; ring
        rw [this]; omega
      rw [this, hp2]
      have : 2 ^ M * (2 * r) ≤ 2 ^ M * (den * 2 ^ t) := Nat.mul_le_mul_left _ hh
      have e : 2 * (2 ^ M * r) = 2 ^ M * (2 * r) := by ring
      omega
    · refine ⟨n0 + 1, t, by omega, Or.inr hb, ?_⟩
      have : ((num : Int) - (((n0 + 1) * 2 ^ t : Nat) : Int) * den).natAbs = den * 2 ^ t - r := by
        have : (((n0 + 1) * 2 ^ t : Nat) : Int) * den = ((den * 2 ^ t * n0 + den * 2 ^ t : Nat) : Int) := by push_cast; ring
        rw [this]; omega
      rw [this, hp2]
      have : 2 ^ M * (2 * (den * 2 ^ t - r)) ≤ 2 ^ M * (den * 2 ^ t) := Nat.mul_le_mul_left _ (by omega)
      have e : 2 * (2 ^ M * (den * 2 ^ t - r)) = 2 ^ M * (2 * (den * 2 ^ t - r)) := by ring
      omega

/-- A nearest float is within relative error `2^-(M+1)` (plus the smallest positive float). -/
theorem nearest_error {E M k : Nat} (h : Fmt E M k) {num den r : Int} (hd : 0 < den) (hr : NearestTo E M k num den r) {T : Nat} (hT : T + 4 ≤ 2 ^ E)
    (hb : num.natAbs < 2 ^ (M + T) * den.natAbs) :
    2 ^ (M + 1) * (num - r * den).natAbs ≤ num.natAbs + 2 ^ (M + 1) * den.natAbs := by
  obtain ⟨n, t, h1, h2, h3⟩ := dyadic_near M num.natAbs den.natAbs (by omega)
  have ht : t + 4 ≤ 2 ^ E := by
    rcases h2 with rfl | h2
    · omega
    · have : 2 ^ (M + t) * den.natAbs < 2 ^ (M + T) * den.natAbs := Nat.lt_of_le_of_lt h2 hb
      have := Nat.lt_of_mul_lt_mul_right this
      have := (Nat.pow_lt_pow_iff_right (by decide : 1 < 2)).mp this
      omega
  obtain ⟨s, hs⟩ := dyadic_is_float h (if num < 0 then -(n : Int) else n) t (by split <;> omega) ht
  have hle := hr s _ hs
  have e : (num - (if num < 0 then -(n : Int) else n) * 2 ^ t * den).natAbs = ((num.natAbs : Int) - ((n * 2 ^ t : Nat) : Int) * den.natAbs).natAbs := by
    have hden : (den.natAbs : Int) = den := by omega
    rw [hden]
    push_cast
    by_cases hneg : num < 0
    · rw [if_pos hneg, show |num| = -num from abs_of_neg hneg, ← Int.natAbs_neg]; congr 1; ring
    · rw [if_neg hneg, show |num| = num from abs_of_nonneg (by omega)]
  rw [e] at hle
  exact Nat.le_trans (Nat.mul_le_mul_left _ hle) h3

/-! ### Real values -/

theorem unitR_pos (E M : Nat) : (0 : ℝ) < (floatUnit E M : ℝ) := by exact_mod_cast unit_pos E M

theorem nearest_real {E M k : Nat} (h : Fmt E M k) {num den r : Int} (hd : 0 < den) (hr : NearestTo E M k num den r)
    (hb : |(num : ℝ) / (den * floatUnit E M)| ≤ 2 ^ 100) :
    |(r : ℝ) / floatUnit E M - num / (den * floatUnit E M)| ≤ |(num : ℝ) / (den * floatUnit E M)| / 2 ^ (M + 1) + 1 / floatUnit E M := by
  have hU := unitR_pos E M
  have hdR : (0 : ℝ) < den := by exact_mod_cast hd
  have hDU : (0 : ℝ) < den * floatUnit E M := mul_pos hdR hU
  have hT : ∃ T, T + 4 ≤ 2 ^ E ∧ (2 : Int) ^ 101 * floatUnit E M ≤ 2 ^ (M + T) := by
    unfold floatUnit
    cases h
    · exact ⟨252, by decide, by decide⟩
    · exact ⟨2044, by decide, by decide +kernel⟩
  obtain ⟨T, hT1, hT2⟩ := hT
  have hlt : num.natAbs < 2 ^ (M + T) * den.natAbs := by
    have h1 : |(num : ℝ)| ≤ 2 ^ 100 * (den * floatUnit E M) := by
      rw [abs_div, abs_of_pos hDU, div_le_iff₀ hDU] at hb; exact hb
    have h2 : |num| ≤ 2 ^ 100 * (den * floatUnit E M) := by exact_mod_cast h1
    have h3 : (2 : Int) ^ 101 * floatUnit E M * den ≤ 2 ^ (M + T) * den := Int.mul_le_mul_of_nonneg_right hT2 (by omega)
    have h4 : 0 < den * floatUnit E M := Int.mul_pos hd (unit_pos E M)
    have h5 : |num| < 2 ^ (M + T) * den := by
      have : (2 : Int) ^ 101 * floatUnit E M * den = 2 * (2 ^ 100 * (den * floatUnit E M)) := by ring
      have : 0 < 2 ^ 100 * (den * floatUnit E M) := Int.mul_pos (by decide) h4
      omega
    have h6 : (num.natAbs : Int) < ((2 ^ (M + T) * den.natAbs : Nat) : Int) := by
      rw [Nat.cast_mul, Nat.cast_pow, Int.natCast_natAbs, Int.natCast_natAbs, abs_of_pos hd]; exact_mod_cast h5
    exact_mod_cast h6
  have hn := nearest_error h hd hr hT1 hlt
  have hnR : (2 : ℝ) ^ (M + 1) * |(num : ℝ) - r * den| ≤ |(num : ℝ)| + 2 ^ (M + 1) * den := by
    have : ((2 ^ (M + 1) * (num - r * den).natAbs : Nat) : ℝ) ≤ ((num.natAbs + 2 ^ (M + 1) * den.natAbs : Nat) : ℝ) := by exact_mod_cast hn
    push_cast [Nat.cast_natAbs] at this
    rw [abs_of_pos hdR] at this
    exact this
  have e1 : (r : ℝ) / floatUnit E M - num / (den * floatUnit E M) = -((num : ℝ) - r * den) / (den * floatUnit E M) := by
    field_simp; ring
  rw [e1, abs_div, abs_neg, abs_of_pos hDU, abs_div, abs_of_pos hDU]
  have hp : (0 : ℝ) < 2 ^ (M + 1) := by positivity
  rw [div_le_iff₀ hDU]
  have e2 : (|(num : ℝ)| / (den * floatUnit E M) / 2 ^ (M + 1) + 1 / floatUnit E M) * (den * floatUnit E M) = (|(num : ℝ)| + 2 ^ (M + 1) * den) / 2 ^ (M + 1) := by
    field_simp
  rw [e2, le_div_iff₀ hp, mul_comm]
  exact hnR

theorem Close.weaken {E M k : Nat} {x : BitVec k} {t ε δ : ℝ} (h : Close E M x t ε) (hle : ε ≤ δ) : Close E M x t δ := by
  obtain ⟨v, h1, h2⟩ := h
  exact ⟨v, h1, le_trans h2 hle⟩

theorem Close.move {E M k : Nat} {x : BitVec k} {t t' ε δ : ℝ} (h : Close E M x t ε) (hd : |t - t'| ≤ δ) : Close E M x t' (ε + δ) := by
  obtain ⟨v, h1, h2⟩ := h
  refine ⟨v, h1, ?_⟩
  have : (v : ℝ) / floatUnit E M - t' = ((v : ℝ) / floatUnit E M - t) + (t - t') := by ring
  rw [this]
  exact le_trans (abs_add_le _ _) (add_le_add h2 hd)

/-- A float as large as needed. -/
theorem big_float {E M k : Nat} (h : Fmt E M k) : ∃ s : BitVec k, floatValue E M s = .fin (2 ^ 100 * floatUnit E M) := by
  cases h
  · exact ⟨0x71800000#32, by decide +kernel⟩
  · exact ⟨0x4630000000000000#64, by decide +kernel⟩

section
variable {F : FloatUnit} {E M k : Nat} (hfmt : Fmt E M k) (hF : IeeeArith F E M k)
include hfmt hF

theorem Close.add {x y : BitVec k} {a b ε δ B : ℝ} (hx : Close E M x a ε) (hy : Close E M y b δ) (hB : |a + b| + ε + δ ≤ B) (hB' : B ≤ 2 ^ 100) :
    Close E M (F.add k x y) (a + b) (ε + δ + (B / 2 ^ (M + 1) + 1 / floatUnit E M)) := by
  obtain ⟨v, h1, h2⟩ := hx
  obtain ⟨w, h3, h4⟩ := hy
  have hU := unitR_pos E M
  have e0 : ((v + w : Int) : ℝ) / (((1 : Int) : ℝ) * floatUnit E M) = (v : ℝ) / floatUnit E M + (w : ℝ) / floatUnit E M := by
    push_cast; rw [one_mul, add_div]
  have hs : |(v : ℝ) / floatUnit E M + (w : ℝ) / floatUnit E M| ≤ B := by
    have e : (v : ℝ) / floatUnit E M + (w : ℝ) / floatUnit E M = (a + b) + (((v : ℝ) / floatUnit E M - a) + ((w : ℝ) / floatUnit E M - b)) := by ring
    rw [e]
    have := abs_add_le (a + b) (((v : ℝ) / floatUnit E M - a) + ((w : ℝ) / floatUnit E M - b))
    have := abs_add_le ((v : ℝ) / floatUnit E M - a) ((w : ℝ) / floatUnit E M - b)
    linarith
  obtain ⟨s, hsv⟩ := big_float hfmt
  obtain ⟨r, hr, hn⟩ := hF.add x y s v w _ h1 h3 hsv (by
    have h5 : |(v : ℝ) + w| ≤ 2 ^ 100 * floatUnit E M := by
      rw [← add_div, abs_div, abs_of_pos hU, div_le_iff₀ hU] at hs
      exact le_trans hs (mul_le_mul_of_nonneg_right hB' hU.le)
    have h6 : |v + w| ≤ 2 ^ 100 * floatUnit E M := by exact_mod_cast h5
    have := abs_le.mp h6
    have := unit_pos E M
    omega)
  have hreal := nearest_real hfmt (by decide) hn (by rw [e0]; exact le_trans hs hB')
  rw [e0] at hreal
  refine ⟨r, hr, ?_⟩
  have e : (r : ℝ) / floatUnit E M - (a + b) = ((r : ℝ) / floatUnit E M - ((v : ℝ) / floatUnit E M + (w : ℝ) / floatUnit E M)) +
    (((v : ℝ) / floatUnit E M - a) + ((w : ℝ) / floatUnit E M - b)) := by ring
  rw [e]
  have t1 := abs_add_le ((r : ℝ) / floatUnit E M - ((v : ℝ) / floatUnit E M + (w : ℝ) / floatUnit E M)) (((v : ℝ) / floatUnit E M - a) + ((w : ℝ) / floatUnit E M - b))
  have t2 := abs_add_le ((v : ℝ) / floatUnit E M - a) ((w : ℝ) / floatUnit E M - b)
  have t3 : |(v : ℝ) / floatUnit E M + (w : ℝ) / floatUnit E M| / 2 ^ (M + 1) ≤ B / 2 ^ (M + 1) := div_le_div_of_nonneg_right hs (by positivity)
  linarith

theorem Close.sub {x y : BitVec k} {a b ε δ B : ℝ} (hx : Close E M x a ε) (hy : Close E M y b δ) (hB : |a - b| + ε + δ ≤ B) (hB' : B ≤ 2 ^ 100) :
    Close E M (F.sub k x y) (a - b) (ε + δ + (B / 2 ^ (M + 1) + 1 / floatUnit E M)) := by
  obtain ⟨v, h1, h2⟩ := hx
  obtain ⟨w, h3, h4⟩ := hy
  have hU := unitR_pos E M
  have e0 : ((v - w : Int) : ℝ) / (((1 : Int) : ℝ) * floatUnit E M) = (v : ℝ) / floatUnit E M - (w : ℝ) / floatUnit E M := by
    push_cast; rw [one_mul, sub_div]
  have hs : |(v : ℝ) / floatUnit E M - (w : ℝ) / floatUnit E M| ≤ B := by
    have e : (v : ℝ) / floatUnit E M - (w : ℝ) / floatUnit E M = (a - b) + (((v : ℝ) / floatUnit E M - a) - ((w : ℝ) / floatUnit E M - b)) := by ring
    rw [e]
    have := abs_add_le (a - b) (((v : ℝ) / floatUnit E M - a) - ((w : ℝ) / floatUnit E M - b))
    have := abs_sub ((v : ℝ) / floatUnit E M - a) ((w : ℝ) / floatUnit E M - b)
    linarith
  obtain ⟨s, hsv⟩ := big_float hfmt
  obtain ⟨r, hr, hn⟩ := hF.sub x y s v w _ h1 h3 hsv (by
    have h5 : |(v : ℝ) - w| ≤ 2 ^ 100 * floatUnit E M := by
      rw [← sub_div, abs_div, abs_of_pos hU, div_le_iff₀ hU] at hs
      exact le_trans hs (mul_le_mul_of_nonneg_right hB' hU.le)
    have h6 : |v - w| ≤ 2 ^ 100 * floatUnit E M := by exact_mod_cast h5
    have := abs_le.mp h6
    have := unit_pos E M
    omega)
  have hreal := nearest_real hfmt (by decide) hn (by rw [e0]; exact le_trans hs hB')
  rw [e0] at hreal
  refine ⟨r, hr, ?_⟩
  have e : (r : ℝ) / floatUnit E M - (a - b) = ((r : ℝ) / floatUnit E M - ((v : ℝ) / floatUnit E M - (w : ℝ) / floatUnit E M)) +
    (((v : ℝ) / floatUnit E M - a) - ((w : ℝ) / floatUnit E M - b)) := by ring
  rw [e]
  have t1 := abs_add_le ((r : ℝ) / floatUnit E M - ((v : ℝ) / floatUnit E M - (w : ℝ) / floatUnit E M)) (((v : ℝ) / floatUnit E M - a) - ((w : ℝ) / floatUnit E M - b))
  have t2 := abs_sub ((v : ℝ) / floatUnit E M - a) ((w : ℝ) / floatUnit E M - b)
  have t3 : |(v : ℝ) / floatUnit E M - (w : ℝ) / floatUnit E M| / 2 ^ (M + 1) ≤ B / 2 ^ (M + 1) := div_le_div_of_nonneg_right hs (by positivity)
  linarith

theorem Close.mul {x y : BitVec k} {a b ε δ A B : ℝ} (hx : Close E M x a ε) (hy : Close E M y b δ) (hA : |a| + ε ≤ A) (hB : |b| + δ ≤ B) (hAB : A * B ≤ 2 ^ 100) :
    Close E M (F.mul k x y) (a * b) (ε * B + A * δ + (A * B / 2 ^ (M + 1) + 1 / floatUnit E M)) := by
  obtain ⟨v, h1, h2⟩ := hx
  obtain ⟨w, h3, h4⟩ := hy
  have hU := unitR_pos E M
  have e0 : ((v * w : Int) : ℝ) / ((floatUnit E M : ℝ) * floatUnit E M) = ((v : ℝ) / floatUnit E M) * ((w : ℝ) / floatUnit E M) := by
    push_cast; field_simp
  have hv : |(v : ℝ) / floatUnit E M| ≤ A := by
    have := abs_add_le ((v : ℝ) / floatUnit E M - a) a
    rw [sub_add_cancel] at this; linarith
  have hw : |(w : ℝ) / floatUnit E M| ≤ B := by
    have := abs_add_le ((w : ℝ) / floatUnit E M - b) b
    rw [sub_add_cancel] at this; linarith
  have hA0 : 0 ≤ A := le_trans (abs_nonneg _) hv
  have hB0 : 0 ≤ B := le_trans (abs_nonneg _) hw
  have hs : |((v : ℝ) / floatUnit E M) * ((w : ℝ) / floatUnit E M)| ≤ A * B := by
    rw [abs_mul]; exact mul_le_mul hv hw (abs_nonneg _) hA0
  obtain ⟨s, hsv⟩ := big_float hfmt
  obtain ⟨r, hr, hn⟩ := hF.mul x y s v w _ h1 h3 hsv (by
    have h5 : |(v : ℝ) * w| ≤ 2 ^ 100 * floatUnit E M * floatUnit E M := by
      have h7 := le_trans hs hAB
      rw [← e0, abs_div, abs_of_pos (mul_pos hU hU), div_le_iff₀ (mul_pos hU hU)] at h7
      push_cast at h7
      linarith
    have h6 : |v * w| ≤ 2 ^ 100 * floatUnit E M * floatUnit E M := by exact_mod_cast h5
    have := Int.mul_pos (Int.mul_pos (show (0 : Int) < 2 ^ 100 by decide) (unit_pos E M)) (unit_pos E M)
    have h8 := abs_le.mp h6
    generalize 2 ^ 100 * floatUnit E M * floatUnit E M = Z at *
    omega)
  have hreal := nearest_real hfmt (unit_pos E M) hn (by rw [e0]; exact le_trans hs hAB)
  rw [e0] at hreal
  refine ⟨r, hr, ?_⟩
  have e : (r : ℝ) / floatUnit E M - a * b = ((r : ℝ) / floatUnit E M - ((v : ℝ) / floatUnit E M) * ((w : ℝ) / floatUnit E M)) +
    (((v : ℝ) / floatUnit E M - a) * ((w : ℝ) / floatUnit E M) + a * ((w : ℝ) / floatUnit E M - b)) := by ring
  rw [e]
  have t1 := abs_add_le ((r : ℝ) / floatUnit E M - ((v : ℝ) / floatUnit E M) * ((w : ℝ) / floatUnit E M))
    (((v : ℝ) / floatUnit E M - a) * ((w : ℝ) / floatUnit E M) + a * ((w : ℝ) / floatUnit E M - b))
  have t2 := abs_add_le (((v : ℝ) / floatUnit E M - a) * ((w : ℝ) / floatUnit E M)) (a * ((w : ℝ) / floatUnit E M - b))
  have t3 : |((v : ℝ) / floatUnit E M) * ((w : ℝ) / floatUnit E M)| / 2 ^ (M + 1) ≤ A * B / 2 ^ (M + 1) := div_le_div_of_nonneg_right hs (by positivity)
  have t4 : |((v : ℝ) / floatUnit E M - a) * ((w : ℝ) / floatUnit E M)| ≤ ε * B := by
    rw [abs_mul]; exact mul_le_mul h2 hw (abs_nonneg _) (le_trans (abs_nonneg _) h2)
  have t5 : |a * ((w : ℝ) / floatUnit E M - b)| ≤ A * δ := by
    rw [abs_mul]
    exact mul_le_mul (by have := le_trans (abs_nonneg _) h2; linarith) h4 (abs_nonneg _) hA0
  linarith

end

end Pnumpy.Props
