import Verif.Props.FloatSumInf
/-
Property theorem C103: accuracy of float64 products.
-/
namespace Pnumpy.Props
open Pnumpy.Spec Pnumpy.Reduce Pnumpy.Elem Pnumpy.OpTables Pnumpy.Ieee

/-- In the normal range some `n * 2^t` with an `M + 1` bit `n` is within half a unit in the last place of `num / den`. -/
theorem dyadic_near_normal (M num den : Nat) (hd : 0 < den) (hq : ¬ num / den < 2 ^ (M + 1)) :
    ∃ n t : Nat, n ≤ 2 ^ (M + 1) ∧ (t = 0 ∨ 2 ^ (M + t) * den ≤ num) ∧
    2 ^ (M + 1) * ((num : Int) - (n * 2 ^ t : Nat) * den).natAbs ≤ num := by
  have hP : 0 < 2 ^ M := Nat.two_pow_pos M
  have hq0 : num / den ≠ 0 := by have := Nat.two_pow_pos (M + 1); omega
  obtain ⟨t, ht⟩ : ∃ t, (num / den).log2 = M + t := by
    have : M ≤ (num / den).log2 := (Nat.le_log2 hq0).mpr (by rw [Nat.pow_succ] at hq; omega)
    exact ⟨(num / den).log2 - M, by omega⟩
  have l1 : 2 ^ (M + t) ≤ num / den := by rw [← ht]; exact Nat.log2_self_le hq0
  have l2 : num / den < 2 ^ (M + t + 1) := by rw [← ht]; exact Nat.lt_log2_self
  have hT : 0 < 2 ^ t := Nat.two_pow_pos t
  have hD : 0 < den * 2 ^ t := Nat.mul_pos hd hT
  have e0 : num / (den * 2 ^ t) = num / den / 2 ^ t := (Nat.div_div_eq_div_mul ..).symm
  have n1 : 2 ^ M ≤ num / (den * 2 ^ t) := by
    rw [e0, Nat.le_div_iff_mul_le hT, ← Nat.pow_add]; exact l1
  have n2 : num / (den * 2 ^ t) < 2 ^ (M + 1) := by
    rw [e0, Nat.div_lt_iff_lt_mul hT, ← Nat.pow_add, show M + 1 + t = M + t + 1 by omega]; exact l2
  have h1 := Nat.div_add_mod num (den * 2 ^ t)
  have h2 := Nat.mod_lt num hD
  have hb : 2 ^ (M + t) * den ≤ num := by
    have := Nat.mul_le_of_le_div _ _ _ l1
    exact this
  have hmul : 2 ^ M * (den * 2 ^ t) ≤ num := by
    have : 2 ^ M * (den * 2 ^ t) = 2 ^ (M + t) * den := by rw [Nat.pow_add]; ring
    omega
  generalize hn0 : num / (den * 2 ^ t) = n0 at *
  generalize hr : num % (den * 2 ^ t) = r at *
  have hp2 : ∀ x, 2 ^ (M + 1) * x = 2 * (2 ^ M * x) := fun x => by rw [Nat.pow_succ]; ring
  by_cases hh : 2 * r ≤ den * 2 ^ t
  · refine ⟨n0, t, by omega, Or.inr hb, ?_⟩
    have : ((num : Int) - ((n0 * 2 ^ t : Nat) : Int) * den).natAbs = r := by
      have : ((n0 * 2 ^ t : Nat) : Int) * den = ((den * 2 ^ t * n0 : Nat) : Int) := by push_cast; ring
      rw [this]; omega
    rw [this, hp2]
    have : 2 ^ M * (2 * r) ≤ 2 ^ M * (den * 2 ^ t) := Nat.mul_le_mul_left _ hh
    have e : 2 * (2 ^ M * r) = 2 ^ M * (2 * r) := by ring
    omega
  · refine ⟨n0 + 1, t, by omega, Or.inr hb, ?_⟩
    have : ((num : Int) - (((n0 + 1) * 2 ^ t : Nat) : Int) * den).natAbs = den * 2 ^ t - r := by
      have : (((n0 + 1) * 2 ^ t : Nat) : Int) * den = ((den * 2 ^ t * n0 + den * 2 ^ t : Nat) : Int) := by push_cast; ring
      rw [this]; omega
    rw [this, hp2]
    have : 2 ^ M * (2 * (den * 2 ^ t - r)) ≤ 2 ^ M * (den * 2 ^ t) := Nat.mul_le_mul_left _ (by omega)
    have e : 2 * (2 ^ M * (den * 2 ^ t - r)) = 2 ^ M * (2 * (den * 2 ^ t - r)) := by ring
    omega

/-- A nearest float is within relative error `2^-(M+1)` in the normal range. -/
theorem nearest_error_normal {E M k : Nat} (h : Fmt E M k) {num den r : Int} (hd : 0 < den) (hr : NearestTo E M k num den r) {T : Nat}
    (hT : T + 4 ≤ 2 ^ E) (hb : num.natAbs < 2 ^ (M + T) * den.natAbs) (hq : 2 ^ (M + 1) * den.natAbs ≤ num.natAbs) :
    2 ^ (M + 1) * (num - r * den).natAbs ≤ num.natAbs := by
  obtain ⟨n, t, h1, h2, h3⟩ := dyadic_near_normal M num.natAbs den.natAbs (by omega) (by
    rw [Nat.not_lt, Nat.le_div_iff_mul_le (by omega)]; exact hq)
  have ht : t + 4 ≤ 2 ^ E := by
    rcases h2 with rfl | h2
    · omega
    · have : 2 ^ (M + t) * den.natAbs < 2 ^ (M + T) * den.natAbs := Nat.lt_of_le_of_lt h2 hb
      have := Nat.lt_of_mul_lt_mul_right this
      have := (Nat.pow_lt_pow_iff_right (by decide : 1 < 2)).mp this
      omega
  obtain ⟨s, hs⟩ := dyadic_is_float h (if num < 0 then -(n : Int) else n) t (by split <;> omega) ht
  have hle := hr s _ hs
  have e : (num - (if num < 0 then -(n : Int) else n) * 2 ^ t * den).natAbs = ((num.natAbs : Int) - ((n * 2 ^ t : Nat) : Int) * den.natAbs).natAbs := by
    have hden : (den.natAbs : Int) = den := by omega
    rw [hden]
    push_cast
    by_cases hneg : num < 0
    · rw [if_pos hneg, show |num| = -num from abs_of_neg hneg, ← Int.natAbs_neg]; congr 1; ring
    · rw [if_neg hneg, show |num| = num from abs_of_nonneg (by omega)]
  rw [e] at hle
  exact Nat.le_trans (Nat.mul_le_mul_left _ hle) h3

/-- One multiplication of two finite numbers whose product neither overflows nor underflows: relative error `2^-53`. -/
theorem mul_relative {F : FloatUnit} (hF : IeeeArith F 11 52 64) {x y : BitVec 64} {a b : ℝ} (hx : IsReal 11 52 x a) (hy : IsReal 11 52 y b)
    (hb : |a * b| ≤ 2 ^ 1021) (hl : 1 ≤ 2 ^ 1020 * |a * b|) : ∃ r, IsReal 11 52 (F.mul 64 x y) r ∧ |r - a * b| ≤ |a * b| / 2 ^ 53 := by
  obtain ⟨vx, h1, rfl⟩ := hx
  obtain ⟨vy, h2, rfl⟩ := hy
  have hU := unitR_pos 11 52
  have hu : floatUnit 11 52 = 2 ^ 1074 := by unfold floatUnit; norm_num
  have huR : ((floatUnit 11 52 : Int) : ℝ) = 2 ^ 1074 := by rw [hu]; push_cast; rfl
  have hs : floatValue 11 52 (0x7FC0000000000000#64) = .fin (2 ^ (1074 + 1021)) := by decide +kernel
  have hprod : (vx : ℝ) / floatUnit 11 52 * (vy / floatUnit 11 52) = ((vx * vy : Int) : ℝ) / (floatUnit 11 52 * floatUnit 11 52) := by
    push_cast; field_simp
  rw [hprod] at hb hl ⊢
  have hUU : (0 : ℝ) < (floatUnit 11 52 : ℝ) * floatUnit 11 52 := mul_pos hU hU
  rw [abs_div, abs_of_pos hUU, natAbs_real] at hb hl
  generalize hN : (vx * vy).natAbs = N at *
  have hup : N ≤ 2 ^ (1074 + 1021) * 2 ^ 1074 := by
    rw [div_le_iff₀ hUU, huR] at hb
    have : (N : ℝ) ≤ ((2 ^ (1074 + 1021) * 2 ^ 1074 : Nat) : ℝ) := by
      push_cast
      refine le_trans hb (le_of_eq ?_)
      rw [← pow_add, ← pow_add, ← pow_add]
    exact_mod_cast this
  have hlo : 2 ^ 53 * 2 ^ 1074 ≤ N := by
    rw [← mul_div_assoc, le_div_iff₀ hUU, one_mul, huR] at hl
    have h5 : (2 : ℝ) ^ 1020 * ((2 ^ 53 * 2 ^ 1074 : Nat) : ℝ) ≤ 2 ^ 1020 * N := by
      refine le_trans ?_ hl
      rw [Nat.cast_mul, Nat.cast_pow, Nat.cast_pow, Nat.cast_ofNat, ← pow_add, ← pow_add, ← pow_add]
      exact pow_le_pow_right₀ (by norm_num) (by norm_num)
    have h6 := le_of_mul_le_mul_left h5 (by positivity : (0 : ℝ) < 2 ^ 1020)
    exact_mod_cast h6
  have habs : (floatUnit 11 52).natAbs = 2 ^ 1074 := by rw [hu]; exact Int.natAbs_pow 2 _
  have habs2 : ((2 : Int) ^ (1074 + 1021)).natAbs = 2 ^ (1074 + 1021) := Int.natAbs_pow 2 _
  have hpl : 2 ^ (1074 + 1021) < 2 ^ (52 + 2044) := Nat.pow_lt_pow_right (by decide) (by decide)
  have hpos : 0 < 2 ^ 1074 := Nat.two_pow_pos _
  obtain ⟨r, hr, hn⟩ := hF.mul x y _ vx vy _ h1 h2 hs (by
    rw [hN, Int.natAbs_mul, habs, habs2]; exact hup)
  have herr := nearest_error_normal Fmt.f64 (unit_pos 11 52) hn (T := 2044) (by norm_num) (by
    rw [hN, habs]
    generalize 2 ^ 1074 = A at *
    generalize 2 ^ (1074 + 1021) = B at *
    generalize 2 ^ (52 + 2044) = C at *
    exact Nat.lt_of_le_of_lt hup (Nat.mul_lt_mul_of_pos_right hpl hpos))
    (by rw [hN, habs, show 52 + 1 = 53 from rfl]; exact hlo)
  rw [hN] at herr
  refine ⟨_, ⟨r, hr, rfl⟩, ?_⟩
  have e1 : (r : ℝ) / floatUnit 11 52 - ((vx * vy : Int) : ℝ) / (floatUnit 11 52 * floatUnit 11 52) =
      -((vx * vy - r * floatUnit 11 52 : Int) : ℝ) / (floatUnit 11 52 * floatUnit 11 52) := by
    push_cast; field_simp; ring
  rw [e1, abs_div, abs_neg, abs_div, abs_of_pos hUU, natAbs_real, natAbs_real, hN,
    div_right_comm]
  apply div_le_div_of_nonneg_right _ hUU.le
  rw [le_div_iff₀ (by positivity), mul_comm]
  exact_mod_cast herr

/-- How far a nonzero number is from 1, as a factor. -/
noncomputable def spread (a : ℝ) : ℝ := max |a| |a|⁻¹

theorem spread_one_le {a : ℝ} (h : a ≠ 0) : 1 ≤ spread a := by
  have hp := abs_pos.mpr h
  unfold spread
  rcases le_total 1 |a| with h1 | h1
  · exact le_max_of_le_left h1
  · exact le_max_of_le_right ((one_le_inv₀ hp).mpr h1)

theorem spread_prod : ∀ {l : List ℝ}, (∀ a ∈ l, a ≠ 0) →
    1 ≤ (l.map spread).prod ∧ |l.prod| ≤ (l.map spread).prod ∧ 1 ≤ (l.map spread).prod * |l.prod|
  | [], _ => by simp
  | a :: l, h => by
    obtain ⟨h1, h2, h3⟩ := spread_prod fun b hb => h b (List.mem_cons_of_mem _ hb)
    have ha := h a List.mem_cons_self
    have hs := spread_one_le ha
    have hp := abs_pos.mpr ha
    have hs1 : |a| ≤ spread a := le_max_left _ _
    have hs2 : 1 ≤ spread a * |a| := by
      have : |a|⁻¹ ≤ spread a := le_max_right _ _
      calc 1 = |a|⁻¹ * |a| := (inv_mul_cancel₀ hp.ne').symm
        _ ≤ _ := mul_le_mul_of_nonneg_right this hp.le
    simp only [List.map_cons, List.prod_cons, abs_mul]
    refine ⟨?_, ?_, ?_⟩
    · nlinarith
    · exact mul_le_mul hs1 h2 (abs_nonneg _) (by linarith)
    · have := mul_le_mul hs2 h3 (by norm_num) (by linarith)
      nlinarith

/-- The error of a product none of whose parts can overflow or underflow. -/
theorem combines_product {F : FloatUnit} (hF : IeeeArith F 11 52 64) {d : Nat} {l : List (BitVec 64)} {r : BitVec 64}
    (h : Combines (F.mul 64) d l r) : ∀ {as : List ℝ}, List.Forall₂ (IsReal 11 52) l as → l.length ≤ 2 ^ 51 → (∀ a ∈ as, a ≠ 0) →
    (as.map spread).prod ≤ 2 ^ 1000 →
    ∃ v m, IsReal 11 52 r v ∧ m + 1 = l.length ∧ |v - as.prod| ≤ ((1 + 1 / 2 ^ 53) ^ m - 1) * |as.prod| := by
  induction h with
  | item d x =>
    intro as hl _ _ _
    cases hl with
    | @cons _ a _ as' h t =>
      cases t
      refine ⟨a, 0, h, rfl, ?_⟩
      simp
  | @both d l l' x y h1 h2 ih1 ih2 =>
    intro as hl hlen hnz hb
    obtain ⟨as1, as2, rfl, hl1, hl2⟩ : ∃ as1 as2, as = as1 ++ as2 ∧ List.Forall₂ (IsReal 11 52) l as1 ∧ List.Forall₂ (IsReal 11 52) l' as2 := by
      refine ⟨as.take l.length, as.drop l.length, (List.take_append_drop _ _).symm, ?_, ?_⟩
      · simpa using List.forall₂_take l.length hl
      · simpa using List.forall₂_drop l.length hl
    simp only [List.map_append, List.prod_append, List.length_append] at hb hlen ⊢
    have nz1 : ∀ a ∈ as1, a ≠ 0 := fun a ha => hnz a (List.mem_append_left _ ha)
    have nz2 : ∀ a ∈ as2, a ≠ 0 := fun a ha => hnz a (List.mem_append_right _ ha)
    obtain ⟨s1, p1, q1⟩ := spread_prod nz1
    obtain ⟨s2, p2, q2⟩ := spread_prod nz2
    have hb1 : (as1.map spread).prod ≤ 2 ^ 1000 := le_trans (le_mul_of_one_le_right (by linarith only [s1]) s2) hb
    have hb2 : (as2.map spread).prod ≤ 2 ^ 1000 := le_trans (le_mul_of_one_le_left (by linarith only [s2]) s1) hb
    obtain ⟨v, m1, hv, hm1, ev⟩ := ih1 hl1 (by omega) nz1 hb1
    obtain ⟨w, m2, hw, hm2, ew⟩ := ih2 hl2 (by omega) nz2 hb2
    have bA : (1 + 1 / 2 ^ 53 : ℝ) ^ m1 ≤ 3 / 2 := by
      refine le_trans (pow_bound m1 (by omega)) ?_
      have : (m1 : ℝ) ≤ 2 ^ 51 := by exact_mod_cast (show m1 ≤ 2 ^ 51 by omega)
      linarith
    have bB : (1 + 1 / 2 ^ 53 : ℝ) ^ m2 ≤ 3 / 2 := by
      refine le_trans (pow_bound m2 (by omega)) ?_
      have : (m2 : ℝ) ≤ 2 ^ 51 := by exact_mod_cast (show m2 ≤ 2 ^ 51 by omega)
      linarith
    have cA : (1 : ℝ) ≤ (1 + 1 / 2 ^ 53) ^ m1 := one_le_pow₀ (by norm_num)
    have cB : (1 : ℝ) ≤ (1 + 1 / 2 ^ 53) ^ m2 := one_le_pow₀ (by norm_num)
    have hpw : (1 + 1 / 2 ^ 53 : ℝ) ^ (m1 + m2 + 1) = (1 + 1 / 2 ^ 53) ^ m1 * (1 + 1 / 2 ^ 53) ^ m2 * (1 + 1 / 2 ^ 53) := by
      rw [pow_succ, pow_add]
    have hS : 1 ≤ 2 ^ 1000 * (|as1.prod| * |as2.prod|) := by
      refine le_trans ?_ (mul_le_mul_of_nonneg_right hb (mul_nonneg (abs_nonneg _) (abs_nonneg _)))
      have := mul_le_mul q1 q2 (by norm_num) (by linarith only [q1])
      linarith only [this]
    have hPQ : |as1.prod| * |as2.prod| ≤ 2 ^ 1000 :=
      le_trans (mul_le_mul p1 p2 (abs_nonneg _) (by linarith only [s1])) hb
    have hK1 : (2 : ℝ) ^ 1021 = 2 ^ 1000 * 2 ^ 21 := by rw [← pow_add]
    have hK2 : (2 : ℝ) ^ 1020 = 2 ^ 1000 * 2 ^ 20 := by rw [← pow_add]
    have hmul := mul_relative hF hv hw
    rw [hK1, hK2] at hmul
    clear hb hb1 hb2 ih1 ih2 hnz nz1 nz2 hlen hl1 hl2 hl h1 h2 hK1 hK2 s1 s2 p1 p2 q1 q2 hv hw
    generalize (1 + 1 / 2 ^ 53 : ℝ) ^ m1 = A at *
    generalize (1 + 1 / 2 ^ 53 : ℝ) ^ m2 = B at *
    generalize as1.prod = P at *
    generalize as2.prod = Q at *
    generalize (2 : ℝ) ^ 1000 = K at *
    have nP := abs_nonneg P
    have nQ := abs_nonneg Q
    have eD : |v * w - P * Q| ≤ (A * B - 1) * (|P| * |Q|) := by
      have e : v * w - P * Q = (v - P) * (w - Q) + ((v - P) * Q + P * (w - Q)) := by ring
      rw [e]
      have t1 := abs_add_le ((v - P) * (w - Q)) ((v - P) * Q + P * (w - Q))
      have t2 := abs_add_le ((v - P) * Q) (P * (w - Q))
      rw [abs_mul] at t1
      rw [abs_mul, abs_mul] at t2
      have t3 : |v - P| * |w - Q| ≤ (A - 1) * |P| * ((B - 1) * |Q|) :=
        mul_le_mul ev ew (abs_nonneg _) (mul_nonneg (by linarith only [cA]) nP)
      have t4 : |v - P| * |Q| ≤ (A - 1) * |P| * |Q| := mul_le_mul_of_nonneg_right ev nQ
      have t5 : |P| * |w - Q| ≤ |P| * ((B - 1) * |Q|) := mul_le_mul_of_nonneg_left ew nP
      have e2 : (A * B - 1) * (|P| * |Q|) = (A - 1) * |P| * ((B - 1) * |Q|) + (A - 1) * |P| * |Q| + |P| * ((B - 1) * |Q|) := by ring
      rw [e2]
      linarith only [t1, t2, t3, t4, t5]
    have nPQ := mul_nonneg nP nQ
    have hAB : A * B ≤ 9 / 4 := by nlinarith only [bA, bB, cA, cB]
    have hup : |v * w| ≤ A * B * (|P| * |Q|) := by
      have t := abs_add_le (v * w - P * Q) (P * Q)
      rw [sub_add_cancel, abs_mul P Q] at t
      linarith only [t, eD]
    have hlo : |P| * |Q| ≤ 4 * |v * w| := by
      have tv : |P| ≤ 2 * |v| := by
        have t := abs_add_le (P - v) v
        rw [sub_add_cancel, abs_sub_comm] at t
        have : (A - 1) * |P| ≤ 1 / 2 * |P| := mul_le_mul_of_nonneg_right (by linarith only [bA]) nP
        linarith only [t, ev, this]
      have tw : |Q| ≤ 2 * |w| := by
        have t := abs_add_le (Q - w) w
        rw [sub_add_cancel, abs_sub_comm] at t
        have : (B - 1) * |Q| ≤ 1 / 2 * |Q| := mul_le_mul_of_nonneg_right (by linarith only [bB]) nQ
        linarith only [t, ew, this]
      rw [abs_mul]
      have := mul_le_mul tv tw nQ (by linarith only [abs_nonneg v])
      linarith only [this]
    have h94 : A * B * (|P| * |Q|) ≤ 9 / 4 * (|P| * |Q|) := mul_le_mul_of_nonneg_right hAB nPQ
    have hKp : 0 ≤ K := le_trans nPQ hPQ
    have hKK : K * (|P| * |Q|) ≤ K * (4 * |v * w|) := mul_le_mul_of_nonneg_left hlo hKp
    obtain ⟨r, hr, er⟩ := hmul (by rw [show (2 : ℝ) ^ 21 = 2097152 by norm_num]; linarith only [hup, h94, hPQ, hKp]) (by
      have n0 : 0 ≤ K * |v * w| := mul_nonneg hKp (abs_nonneg _)
      have e : K * 2 ^ 20 * |v * w| = 2 ^ 20 * (K * |v * w|) := by ring
      rw [e]
      have e' : K * (4 * |v * w|) = 4 * (K * |v * w|) := by ring
      rw [e'] at hKK
      rw [show (2 : ℝ) ^ 20 = 1048576 by norm_num]
      linarith only [hS, hKK, n0])
    refine ⟨r, m1 + m2 + 1, hr, by omega, ?_⟩
    rw [hpw, abs_mul P Q]
    have e : r - P * Q = (r - v * w) + (v * w - P * Q) := by ring
    rw [e]
    have t := abs_add_le (r - v * w) (v * w - P * Q)
    have t2 : |v * w| / 2 ^ 53 ≤ A * B * (|P| * |Q|) / 2 ^ 53 := div_le_div_of_nonneg_right hup (by positivity)
    have e3 : (A * B * (1 + 1 / 2 ^ 53) - 1) * (|P| * |Q|) = (A * B - 1) * (|P| * |Q|) + A * B * (|P| * |Q|) / 2 ^ 53 := by ring
    rw [e3]
    linarith only [t, t2, er, eD]
  | @reorder d l l' x hp _ ih =>
    intro as hl hlen hnz hb
    obtain ⟨as', hp', hl'⟩ : ∃ as', as'.Perm as ∧ List.Forall₂ (IsReal 11 52) l as' := by
      have : Relation.Comp List.Perm (List.Forall₂ (IsReal 11 52)) l as := ⟨l', hp, hl⟩
      rw [← List.forall₂_comp_perm_eq_perm_comp_forall₂] at this
      obtain ⟨as', h1, h2⟩ := this
      exact ⟨as', h2, h1⟩
    have e1 : as'.prod = as.prod := hp'.prod_eq
    have e2 : (as'.map spread).prod = (as.map spread).prod := (hp'.map _).prod_eq
    have e3 : l.length = l'.length := hp.length_eq
    have := ih hl' (by rw [e3]; exact hlen) (fun a ha => hnz a (hp'.mem_iff.mp ha)) (by rw [e2]; exact hb)
    rwa [e1, e3] at this

theorem combines_product_close {F : FloatUnit} (hF : IeeeArith F 11 52 64) {d : Nat} {l : List (BitVec 64)} {r : BitVec 64}
    (h : Combines (F.mul 64) d l r) {as : List ℝ} (hl : List.Forall₂ (IsReal 11 52) l as) (hlen : l.length ≤ 2 ^ 51) (hnz : ∀ a ∈ as, a ≠ 0)
    (hb : (as.map spread).prod ≤ 2 ^ 1000) : Close 11 52 r as.prod (((l.length - 1 : Nat) : ℝ) / 2 ^ 52 * |as.prod|) := by
  obtain ⟨v, m, ⟨z, hz, rfl⟩, hm, hv⟩ := combines_product hF h hl hlen hnz hb
  refine ⟨z, hz, le_trans hv (mul_le_mul_of_nonneg_right ?_ (abs_nonneg _))⟩
  have := pow_bound m (by omega)
  rw [show l.length - 1 = m by omega]
  linarith only [this]

/-- The float64 product: every kernel of the table is `F.mul`. -/
theorem f64_mul_kernel {F : FloatUnit} {e : RedFunc} {start : Option (BitVec e.bits)} (he : ReduceKernel F .multiply .f64 e start) :
    ∃ hb : e.bits = 64, e.at hb = F.mul 64 ∧ start.map (BitVec.cast hb) = some 0x3ff0000000000000 := by
  obtain ⟨op, hm, he, rfl⟩ := he
  rw [opOf hm] at he ⊢
  simp only [reduceOpFast, Option.some.injEq] at he
  subst he
  exact ⟨rfl, rfl, rfl⟩

/-- **C103**: the float64 product of nonzero finite numbers no part of which can overflow or underflow - the numbers' distances from 1, as factors,
multiply to at most `2^1000` - is within `n / 2^52` of the exact product, relatively, on the calling thread, and within
`(n + number of blocks) / 2^52` threaded; the threaded result does not depend on thread limits or schedule. -/
theorem C103_float64_product (F : FloatUnit) (hF : IeeeArith F 11 52 64) (e : RedFunc) (start : Option (BitVec e.bits))
    (he : ReduceKernel F .multiply .f64 e start) (lay : Layout) (xs : List (BitVec 64)) (init : BitVec 64) (as : List ℝ) (a : ℝ)
    (hxs : List.Forall₂ (IsReal 11 52) xs as) (hinit : IsReal 11 52 init a) (hn : 0 < xs.length) (hlen : xs.length ≤ 2 ^ 50)
    (hz : lay = .zero → ∀ x ∈ xs, ∀ y ∈ xs, x = y) (hnz : ∀ b ∈ a :: as, b ≠ 0)
    (hrange : ((a :: as).map fun b => max |b| |b|⁻¹).prod ≤ 2 ^ 1000) :
    ∃ hb : e.bits = 64,
      (∃ r, reduceFast (e.at hb) 4 lay xs init = some r ∧
        Close 11 52 r (a * as.prod) ((xs.length : ℝ) / 2 ^ 52 * |a * as.prod|)) ∧
      ∃ r, (∀ (req : Int) (mw zz : Nat) (sched : List Nat), (Work.exec (ufuncItem xs.length req mw zz) sched).pc 0 = .returned →
          threadedFast (e.at hb) 4 lay (start.map (BitVec.cast hb)) xs init (Work.kernelCalls (ufuncItem xs.length req mw zz)
            (Work.exec (ufuncItem xs.length req mw zz) sched)) = some r) ∧
        Close 11 52 r (a * as.prod) (((xs.length + (1 + (xs.length - 1) / 16384) : Nat) : ℝ) / 2 ^ 52 * |a * as.prod|) := by
  obtain ⟨hb, hop, hst⟩ := f64_mul_kernel he
  refine ⟨hb, ?_, ?_⟩
  · rw [hop]
    have hz0 : lay = .zero → ∀ x ∈ xs, xs[0]? = some x := by
      intro hlay x hx
      cases xs with
      | nil => cases hx
      | cons y l => simp [hz hlay y (by simp) x hx]
    obtain ⟨r, h1, h2⟩ := C103_serial (F.mul 64) 4 (by decide) lay xs init hz0
    refine ⟨r, h1, ?_⟩
    have := combines_product_close hF h2 (as := a :: as) (.cons hinit hxs) (by rw [List.length_cons]; omega) hnz hrange
    simpa using this
  · rw [hop, hst]
    obtain ⟨r, h1, h2⟩ := C103_threaded (F.mul 64) 4 (by decide) lay (some 0x3ff0000000000000) xs init hn hz
    refine ⟨r, h1, ?_⟩
    have v1 : floatValue 11 52 (0x3ff0000000000000 : BitVec 64) = .fin (2 ^ 1074) := by decide +kernel
    have hu : floatUnit 11 52 = 2 ^ 1074 := by unfold floatUnit; norm_num
    have hone : IsReal 11 52 (0x3ff0000000000000 : BitVec 64) 1 := by
      refine ⟨_, v1, ?_⟩
      rw [hu]
      exact div_self (by exact_mod_cast (by positivity : (2 : ℝ) ^ 1074 ≠ 0))
    have hones : ∀ n, List.Forall₂ (IsReal 11 52) (List.replicate n (0x3ff0000000000000 : BitVec 64)) (List.replicate n (1 : ℝ)) := by
      intro n
      induction n with
      | zero => exact .nil
      | succ n ih => exact .cons hone ih
    have hs1 : spread 1 = 1 := by simp [spread]
    have := combines_product_close hF h2 (as := a :: (List.replicate (1 + (xs.length - 1) / 16384) 1 ++ as))
      (.cons hinit (List.rel_append (hones _) hxs)) (by
        rw [List.length_cons, List.length_append, List.length_replicate]
        have := Nat.div_le_self (xs.length - 1) 16384
        omega) (by
        intro b hb
        simp only [List.mem_cons, List.mem_append, List.mem_replicate] at hb
        rcases hb with rfl | ⟨_, rfl⟩ | hb
        · exact hnz _ List.mem_cons_self
        · exact one_ne_zero
        · exact hnz _ (List.mem_cons_of_mem _ hb)) (by
        rw [List.map_cons, List.map_append, List.map_replicate, hs1, List.prod_cons, List.prod_append, List.prod_replicate, one_pow, one_mul]
        exact hrange)
    rw [List.prod_cons, List.prod_append, List.prod_replicate, one_pow, one_mul, List.length_cons, List.length_append, List.length_replicate,
      show 1 + (xs.length - 1) / 16384 + xs.length + 1 - 1 = xs.length + (1 + (xs.length - 1) / 16384) by omega] at this
    exact this

/-- Case: `n` twos, up to 1000 of them. -/
example (F : FloatUnit) (hF : IeeeArith F 11 52 64) (n : Nat) (h0 : 0 < n) (hn : n ≤ 1000) (x : BitVec 64) (hx : IsReal 11 52 x 2) (y : BitVec 64)
    (hy : IsReal 11 52 y 1) : ∃ r, reduceFast (F.mul 64) 4 .strided (List.replicate n x) y = some r ∧
      Close 11 52 r (2 ^ n) ((n : ℝ) / 2 ^ 52 * 2 ^ n) := by
  have hall : ∀ n, List.Forall₂ (IsReal 11 52) (List.replicate n x) (List.replicate n (2 : ℝ)) := by
    intro n
    induction n with
    | zero => exact .nil
    | succ n ih => exact .cons hx ih
  have hm : max |(2 : ℝ)| |(2 : ℝ)|⁻¹ = 2 := by
    rw [abs_of_pos (by norm_num : (0 : ℝ) < 2)]; exact max_eq_left (by norm_num)
  obtain ⟨hb, ⟨r, h1, h2⟩, _⟩ := C103_float64_product F hF _ _ ⟨.MUL, by decide, rfl, rfl⟩ .strided (List.replicate n x) y
    (List.replicate n 2) 1 (hall n) hy (by rw [List.length_replicate]; exact h0) (by rw [List.length_replicate]; omega) (by intro h; cases h) (by
      intro b hb
      simp only [List.mem_cons, List.mem_replicate] at hb
      rcases hb with rfl | ⟨_, rfl⟩ <;> norm_num) (by
      rw [List.map_cons, List.map_replicate, hm, List.prod_cons, List.prod_replicate, abs_one, inv_one, max_self, one_mul]
      exact pow_le_pow_right₀ (by norm_num) hn)
  refine ⟨r, h1, ?_⟩
  rw [List.prod_replicate, one_mul, List.length_replicate, abs_of_pos (by positivity)] at h2
  exact h2

end Pnumpy.Props
