import Verif.Props.Combine
/-
Property theorem C103: accuracy of float64 sums.
-/
namespace Pnumpy.Props
open Pnumpy.Spec Pnumpy.Reduce Pnumpy.Elem Pnumpy.OpTables Pnumpy.Ieee
variable {α : Type}

/-- Rounding an integer number of units: relative error `2^-53`, no absolute term. -/
theorem nearest_unit {num r : Int} (hr : NearestTo 11 52 64 num 1 r) (hb : num.natAbs < 2 ^ (52 + 2044)) :
    2 ^ 53 * (num - r).natAbs ≤ num.natAbs := by
  by_cases hs : num.natAbs ≤ 2 ^ 53
  · obtain ⟨s, hv⟩ := dyadic_is_float Fmt.f64 num 0 hs (by norm_num)
    have := hr s _ hv
    simp only [Int.pow_zero, Int.mul_one, Int.sub_self] at this
    have : (num - r).natAbs = 0 := by simpa using this
    omega
  · obtain ⟨n, t, h1, h2, h3⟩ : ∃ n t : Nat, n ≤ 2 ^ (52 + 1) ∧ (t = 0 ∨ 2 ^ (52 + t) ≤ num.natAbs) ∧
        2 ^ (52 + 1) * ((num.natAbs : Int) - (n * 2 ^ t : Nat)).natAbs ≤ num.natAbs := by
      have hP := num.natAbs
      generalize num.natAbs = N at *
      have hN : N ≠ 0 := by omega
      obtain ⟨t, ht⟩ : ∃ t, N.log2 = 52 + t := by
        have : 53 ≤ N.log2 := (Nat.le_log2 hN).mpr (by omega)
        exact ⟨N.log2 - 52, by omega⟩
      have l1 : 2 ^ (52 + t) ≤ N := by rw [← ht]; exact Nat.log2_self_le hN
      have l2 : N < 2 ^ (52 + t + 1) := by rw [← ht]; exact Nat.lt_log2_self
      have hT : 0 < 2 ^ t := Nat.two_pow_pos t
      have d := Nat.div_add_mod N (2 ^ t)
      have m := Nat.mod_lt N hT
      have n2 : N / 2 ^ t < 2 ^ 53 := by
        rw [Nat.div_lt_iff_lt_mul hT, ← Nat.pow_add, show 53 + t = 52 + t + 1 by omega]; exact l2
      have hl : 2 ^ 52 * 2 ^ t ≤ N := by rw [← Nat.pow_add]; exact l1
      generalize N / 2 ^ t = q at *
      generalize N % 2 ^ t = ρ at *
      by_cases hh : 2 * ρ ≤ 2 ^ t
      · refine ⟨q, t, by omega, Or.inr l1, ?_⟩
        have : ((N : Int) - (q * 2 ^ t : Nat)).natAbs = ρ := by rw [Nat.mul_comm q]; omega
        rw [this]
        omega
      · refine ⟨q + 1, t, by omega, Or.inr l1, ?_⟩
        have : ((N : Int) - ((q + 1) * 2 ^ t : Nat)).natAbs = 2 ^ t - ρ := by rw [Nat.add_mul, Nat.mul_comm q]; omega
        rw [this]
        omega
    have ht : t + 4 ≤ 2 ^ 11 := by
      rcases h2 with rfl | h2
      · norm_num
      · have := (Nat.pow_lt_pow_iff_right (by decide : 1 < 2)).mp (Nat.lt_of_le_of_lt h2 hb)
        omega
    obtain ⟨s, hs⟩ := dyadic_is_float Fmt.f64 (if num < 0 then -(n : Int) else n) t (by split <;> omega) ht
    have hle := hr s _ hs
    have e : (num - (if num < 0 then -(n : Int) else n) * 2 ^ t * 1).natAbs = ((num.natAbs : Int) - ((n * 2 ^ t : Nat) : Int)).natAbs := by
      push_cast
      by_cases hneg : num < 0
      · rw [if_pos hneg, show |num| = -num from abs_of_neg hneg, ← Int.natAbs_neg]; congr 1; ring
      · rw [if_neg hneg, show |num| = num from abs_of_nonneg (by omega)]; congr 1; ring
    rw [e, Int.mul_one] at hle
    exact Nat.le_trans (Nat.mul_le_mul_left _ hle) h3

theorem abs_sum_le : ∀ l : List ℝ, |l.sum| ≤ (l.map abs).sum
  | [] => by simp
  | x :: l => by
    simp only [List.sum_cons, List.map_cons]
    exact le_trans (abs_add_le _ _) (add_le_add (le_refl _) (abs_sum_le l))

theorem abs_sum_nonneg (l : List ℝ) : 0 ≤ (l.map abs).sum := le_trans (abs_nonneg _) (abs_sum_le l)

theorem natAbs_real (z : Int) : |(z : ℝ)| = ((z.natAbs : Nat) : ℝ) := by
  rw [← Int.cast_abs, Int.abs_eq_natAbs, Int.cast_natCast]

/-- One addition of two finite numbers whose sum does not overflow: relative error `2^-53`. -/
theorem add_relative {F : FloatUnit} (hF : IeeeArith F 11 52 64) {x y : BitVec 64} {a b : ℝ} (hx : IsReal 11 52 x a) (hy : IsReal 11 52 y b)
    (hb : |a + b| ≤ 2 ^ 1021) : ∃ r, IsReal 11 52 (F.add 64 x y) r ∧ |r - (a + b)| ≤ |a + b| / 2 ^ 53 := by
  obtain ⟨vx, h1, rfl⟩ := hx
  obtain ⟨vy, h2, rfl⟩ := hy
  have hU := unitR_pos 11 52
  have hu : floatUnit 11 52 = 2 ^ 1074 := by unfold floatUnit; norm_num
  have hs : floatValue 11 52 (0x7FC0000000000000#64) = .fin (2 ^ (1074 + 1021)) := by decide +kernel
  have hsum : (vx : ℝ) / floatUnit 11 52 + vy / floatUnit 11 52 = ((vx + vy : Int) : ℝ) / floatUnit 11 52 := by push_cast; ring
  rw [hsum] at hb ⊢
  have hbnd : (vx + vy).natAbs ≤ 2 ^ (1074 + 1021) := by
    rw [abs_div, abs_of_pos hU, div_le_iff₀ hU, hu] at hb
    rw [natAbs_real] at hb
    have h4 : (2 : ℝ) ^ 1021 * ((2 ^ 1074 : Int) : ℝ) = ((2 ^ (1074 + 1021) : Nat) : ℝ) := by
      push_cast
      rw [← pow_add]
    rw [h4] at hb
    exact_mod_cast hb
  obtain ⟨r, hr, hn⟩ := hF.add x y _ vx vy _ h1 h2 hs (by
    have : ((2 : Int) ^ (1074 + 1021)).natAbs = 2 ^ (1074 + 1021) := Int.natAbs_pow 2 _
    omega)
  have herr := nearest_unit hn (Nat.lt_of_le_of_lt hbnd (Nat.pow_lt_pow_right (by decide) (by decide)))
  refine ⟨_, ⟨r, hr, rfl⟩, ?_⟩
  rw [← sub_div, abs_div, abs_div, abs_of_pos hU]
  have h5 : (2 : ℝ) ^ 53 * |(r : ℝ) - ((vx + vy : Int) : ℝ)| ≤ |((vx + vy : Int) : ℝ)| := by
    have e1 : |(r : ℝ) - ((vx + vy : Int) : ℝ)| = (((vx + vy - r).natAbs : Nat) : ℝ) := by
      rw [abs_sub_comm, ← Int.cast_sub, natAbs_real]
    have e2 : |((vx + vy : Int) : ℝ)| = (((vx + vy).natAbs : Nat) : ℝ) := natAbs_real _
    rw [e1, e2]
    exact_mod_cast herr
  have hp : (0 : ℝ) < 2 ^ 53 := by positivity
  rw [div_div, mul_comm ((floatUnit 11 52 : Int) : ℝ), ← div_div]
  apply div_le_div_of_nonneg_right _ hU.le
  rw [le_div_iff₀ hp, mul_comm]
  exact h5

/-- The error of a sum all of whose items pass through at most `d` additions. -/
theorem combines_error {F : FloatUnit} (hF : IeeeArith F 11 52 64) {d : Nat} {l : List (BitVec 64)} {r : BitVec 64}
    (h : Combines (F.add 64) d l r) : ∀ {as : List ℝ}, List.Forall₂ (IsReal 11 52) l as → (1 + 1 / 2 ^ 53) ^ d * (as.map abs).sum ≤ 2 ^ 1021 →
    ∃ v, IsReal 11 52 r v ∧ |v - as.sum| ≤ ((1 + 1 / 2 ^ 53) ^ d - 1) * (as.map abs).sum := by
  induction h with
  | item d x =>
    intro as hl _
    cases hl with
    | @cons _ a _ as' h t =>
      cases t
      refine ⟨a, h, ?_⟩
      simp only [List.sum_cons, List.sum_nil, List.map_cons, List.map_nil, add_zero, sub_self, abs_zero]
      have : (1 : ℝ) ≤ (1 + 1 / 2 ^ 53) ^ d := one_le_pow₀ (by norm_num)
      exact mul_nonneg (by linarith) (abs_nonneg _)
  | @both d l l' x y _ _ ih1 ih2 =>
    intro as hl hb
    obtain ⟨as1, as2, rfl, hl1, hl2⟩ : ∃ as1 as2, as = as1 ++ as2 ∧ List.Forall₂ (IsReal 11 52) l as1 ∧ List.Forall₂ (IsReal 11 52) l' as2 := by
      refine ⟨as.take l.length, as.drop l.length, (List.take_append_drop _ _).symm, ?_, ?_⟩
      · simpa using List.forall₂_take l.length hl
      · simpa using List.forall₂_drop l.length hl
    simp only [List.map_append, List.sum_append] at hb ⊢
    have hn1 := abs_sum_nonneg as1
    have hn2 := abs_sum_nonneg as2
    have hs1 := abs_sum_le as1
    have hs2 := abs_sum_le as2
    have hu : (1 : ℝ) ≤ (1 + 1 / 2 ^ 53) := by norm_num
    have hp1 : (1 : ℝ) ≤ (1 + 1 / 2 ^ 53) ^ d := one_le_pow₀ hu
    have hps : (1 + 1 / 2 ^ 53 : ℝ) ^ (d + 1) = (1 + 1 / 2 ^ 53) ^ d + (1 + 1 / 2 ^ 53) ^ d / 2 ^ 53 := by rw [pow_succ]; ring
    rw [hps] at hb ⊢
    have i1 := ih1 hl1
    have i2 := ih2 hl2
    clear ih1 ih2
    generalize (1 + 1 / 2 ^ 53 : ℝ) ^ d = P at *
    generalize (as1.map abs).sum = A at *
    generalize (as2.map abs).sum = B at *
    generalize hK : (2 : ℝ) ^ 1021 = K at *
    have hPA : 0 ≤ P * A := mul_nonneg (by linarith) hn1
    have hPB : 0 ≤ P * B := mul_nonneg (by linarith) hn2
    have hq : (P + P / 2 ^ 53) * (A + B) = (P * A + P * B) + (P * A + P * B) / 2 ^ 53 := by ring
    rw [hq] at hb
    have hq0 : 0 ≤ (P * A + P * B) / 2 ^ 53 := by positivity
    obtain ⟨v, hv, ev⟩ := i1 (by linarith only [hb, hPA, hPB, hq0])
    obtain ⟨w, hw, ew⟩ := i2 (by linarith only [hb, hPA, hPB, hq0])
    have hvw : |v + w| ≤ P * A + P * B := by
      have e : v + w = (v - as1.sum) + (w - as2.sum) + (as1.sum + as2.sum) := by ring
      rw [e]
      refine le_trans (abs_add_le _ _) ?_
      have g1 := abs_add_le (v - as1.sum) (w - as2.sum)
      have g2 := abs_add_le as1.sum as2.sum
      linarith only [g1, g2, ev, ew, hs1, hs2]
    obtain ⟨r, hr, er⟩ := add_relative hF hv hw (by rw [hK]; linarith only [hb, hvw, hq0])
    refine ⟨r, hr, ?_⟩
    have e : r - (as1.sum + as2.sum) = (r - (v + w)) + ((v - as1.sum) + (w - as2.sum)) := by ring
    rw [e]
    refine le_trans (abs_add_le _ _) ?_
    have h6 := abs_add_le (v - as1.sum) (w - as2.sum)
    have h7 : |v + w| / 2 ^ 53 ≤ (P * A + P * B) / 2 ^ 53 := div_le_div_of_nonneg_right hvw (by positivity)
    have h8 : (P + P / 2 ^ 53 - 1) * (A + B) = (P - 1) * A + (P - 1) * B + (P * A + P * B) / 2 ^ 53 := by ring
    rw [h8]
    linarith only [h6, h7, er, ev, ew]
  | @reorder d l l' x hp _ ih =>
    intro as hl hb
    obtain ⟨as', hp', hl'⟩ : ∃ as', as'.Perm as ∧ List.Forall₂ (IsReal 11 52) l as' := by
      have : Relation.Comp List.Perm (List.Forall₂ (IsReal 11 52)) l as := ⟨l', hp, hl⟩
      rw [← List.forall₂_comp_perm_eq_perm_comp_forall₂] at this
      obtain ⟨as', h1, h2⟩ := this
      exact ⟨as', h2, h1⟩
    have e1 : as'.sum = as.sum := hp'.sum_eq
    have e2 : (as'.map abs).sum = (as.map abs).sum := (hp'.map abs).sum_eq
    have := ih hl' (by rw [e2]; exact hb)
    rwa [e1, e2] at this

theorem pow_bound (d : Nat) (hd : d ≤ 2 ^ 52) : (1 + 1 / 2 ^ 53 : ℝ) ^ d ≤ 1 + d / 2 ^ 52 := by
  induction d with
  | zero => simp
  | succ d ih =>
    have h1 := ih (by omega)
    have h2 : (d : ℝ) ≤ 2 ^ 52 := by exact_mod_cast (show d ≤ 2 ^ 52 by omega)
    rw [pow_succ]
    have h3 : (1 + 1 / 2 ^ 53 : ℝ) ^ d * (1 + 1 / 2 ^ 53) ≤ (1 + d / 2 ^ 52) * (1 + 1 / 2 ^ 53) :=
      mul_le_mul_of_nonneg_right h1 (by positivity)
    refine le_trans h3 ?_
    push_cast
    have h4 : (d : ℝ) / 2 ^ 52 ≤ 1 := by rw [div_le_one (by positivity)]; exact h2
    have h5 : (1 + (d : ℝ) / 2 ^ 52) * (1 + 1 / 2 ^ 53) = 1 + (d : ℝ) / 2 ^ 52 + 1 / 2 ^ 53 + (d : ℝ) / 2 ^ 52 * (1 / 2 ^ 53) := by ring
    have h6 : (d : ℝ) / 2 ^ 52 * (1 / 2 ^ 53) ≤ 1 * (1 / 2 ^ 53) := mul_le_mul_of_nonneg_right h4 (by positivity)
    have h7 : ((d : ℝ) + 1) / 2 ^ 52 = d / 2 ^ 52 + 1 / 2 ^ 53 + 1 / 2 ^ 53 := by ring
    rw [h5, h7]
    linarith only [h6]

theorem combines_close {F : FloatUnit} (hF : IeeeArith F 11 52 64) {d : Nat} (hd : d ≤ 2 ^ 52) {l : List (BitVec 64)} {r : BitVec 64}
    (h : Combines (F.add 64) d l r) {as : List ℝ} (hl : List.Forall₂ (IsReal 11 52) l as) (hb : (as.map abs).sum ≤ 2 ^ 1020) :
    Close 11 52 r as.sum (d / 2 ^ 52 * (as.map abs).sum) := by
  have hp := pow_bound d hd
  have h1 := combines_error hF h hl
  have hn := abs_sum_nonneg as
  have h2 : (d : ℝ) / 2 ^ 52 ≤ 1 := by rw [div_le_one (by positivity)]; exact_mod_cast hd
  have h3 : (2 : ℝ) ^ 1021 = 2 * 2 ^ 1020 := by rw [← pow_succ']
  rw [h3] at h1
  generalize (2 : ℝ) ^ 1020 = K at hb h1
  generalize (as.map abs).sum = S at *
  generalize (1 + 1 / 2 ^ 53 : ℝ) ^ d = P at *
  generalize (d : ℝ) / 2 ^ 52 = q at *
  have h4 : P * S ≤ (1 + q) * S := mul_le_mul_of_nonneg_right hp hn
  have h5 : (1 + q) * S ≤ 2 * S := mul_le_mul_of_nonneg_right (by linarith only [h2]) hn
  obtain ⟨v, ⟨z, hz, rfl⟩, hv⟩ := h1 (by linarith only [h4, h5, hb])
  exact ⟨z, hz, le_trans hv (by linarith only [h4])⟩

/-- The float64 sum: every kernel of the table is `F.add`. -/
theorem f64_add_kernel {F : FloatUnit} {e : RedFunc} {start : Option (BitVec e.bits)} (he : ReduceKernel F .add .f64 e start) :
    ∃ hb : e.bits = 64, e.at hb = F.add 64 ∧ start.map (BitVec.cast hb) = some 0 := by
  obtain ⟨op, hm, he, rfl⟩ := he
  rw [opOf hm] at he ⊢
  simp only [reduceOpFast, Option.some.injEq] at he
  subst he
  exact ⟨rfl, rfl, rfl⟩

theorem passes_le (w : Nat) (hw : 0 < w) (lay : Layout) (n : Nat) : passes w lay n ≤ n + 3 * w := by
  cases lay <;> simp only [passes] <;> try omega
  have := Nat.div_le_self n (2 * w)
  omega

/-- **C103**: the float64 sum of `n ≤ 2^51` finite numbers that cannot overflow is within `passes / 2^52` times the sum of the absolute values of the
exact sum, on the calling thread and threaded; the threaded result does not depend on thread limits or schedule. -/
theorem C103_float64_sum (F : FloatUnit) (hF : IeeeArith F 11 52 64) (e : RedFunc) (start : Option (BitVec e.bits))
    (he : ReduceKernel F .add .f64 e start) (lay : Layout) (xs : List (BitVec 64)) (init : BitVec 64) (as : List ℝ) (a : ℝ)
    (hxs : List.Forall₂ (IsReal 11 52) xs as) (hinit : IsReal 11 52 init a) (hn : 0 < xs.length) (hlen : xs.length ≤ 2 ^ 51)
    (hz : lay = .zero → ∀ x ∈ xs, ∀ y ∈ xs, x = y) (hover : |a| + (as.map abs).sum ≤ 2 ^ 1020) :
    ∃ hb : e.bits = 64,
      (∃ r, reduceFast (e.at hb) 4 lay xs init = some r ∧
        Close 11 52 r (a + as.sum) ((passes 4 lay xs.length : ℝ) / 2 ^ 52 * (|a| + (as.map abs).sum))) ∧
      ∃ r, (∀ (req : Int) (mw zz : Nat) (sched : List Nat), (Work.exec (ufuncItem xs.length req mw zz) sched).pc 0 = .returned →
          threadedFast (e.at hb) 4 lay (start.map (BitVec.cast hb)) xs init (Work.kernelCalls (ufuncItem xs.length req mw zz)
            (Work.exec (ufuncItem xs.length req mw zz) sched)) = some r) ∧
        Close 11 52 r (a + as.sum)
          (((passes 4 lay 16384 + passes 4 .contiguous (xs.length / 16384 + 1) : Nat) : ℝ) / 2 ^ 52 * (|a| + (as.map abs).sum)) := by
  obtain ⟨hb, hop, hst⟩ := f64_add_kernel he
  refine ⟨hb, ?_, ?_⟩
  · rw [hop]
    have hz0 : lay = .zero → ∀ x ∈ xs, xs[0]? = some x := by
      intro hlay x hx
      cases xs with
      | nil => cases hx
      | cons y l => simp [hz hlay y (by simp) x hx]
    obtain ⟨r, h1, h2⟩ := C103_serial (F.add 64) 4 (by decide) lay xs init hz0
    refine ⟨r, h1, ?_⟩
    have hd := passes_le 4 (by decide) lay xs.length
    have := combines_close hF (by omega) h2 (as := a :: as) (.cons hinit hxs) (by simpa using hover)
    simpa using this
  · rw [hop, hst]
    obtain ⟨r, h1, h2⟩ := C103_threaded (F.add 64) 4 (by decide) lay (some 0) xs init hn hz
    refine ⟨r, h1, ?_⟩
    have hd1 := passes_le 4 (by decide) lay 16384
    have hd2 := passes_le 4 (by decide) .contiguous (xs.length / 16384 + 1)
    have hzero : ∀ n, List.Forall₂ (IsReal 11 52) (List.replicate n (0 : BitVec 64)) (List.replicate n (0 : ℝ)) := by
      intro n
      induction n with
      | zero => exact .nil
      | succ n ih =>
        exact .cons ⟨0, value_zeroPattern Fmt.f64, by simp⟩ ih
    have := combines_close hF (by omega) h2 (as := a :: (List.replicate _ 0 ++ as)) (.cons hinit (List.rel_append (hzero _) hxs)) (by
      simpa using hover)
    simpa using this

/-- Sums of integers that fit in 53 bits are combined without any error. -/
theorem combines_exact {F : FloatUnit} (hF : IeeeArith F 11 52 64) {d : Nat} {l : List (BitVec 64)} {r : BitVec 64}
    (h : Combines (F.add 64) d l r) : ∀ {zs : List Int}, List.Forall₂ (fun x (z : Int) => IsReal 11 52 x z) l zs → (zs.map Int.natAbs).sum ≤ 2 ^ 53 →
    IsReal 11 52 r zs.sum := by
  induction h with
  | item d x =>
    intro zs hl _
    cases hl with
    | cons h t => cases t; simpa using h
  | @both d l l' x y _ _ ih1 ih2 =>
    intro zs hl hb
    obtain ⟨z1, z2, rfl, hl1, hl2⟩ : ∃ z1 z2, zs = z1 ++ z2 ∧ List.Forall₂ (fun x (z : Int) => IsReal 11 52 x z) l z1 ∧
        List.Forall₂ (fun x (z : Int) => IsReal 11 52 x z) l' z2 := by
      refine ⟨zs.take l.length, zs.drop l.length, (List.take_append_drop _ _).symm, ?_, ?_⟩
      · simpa using List.forall₂_take l.length hl
      · simpa using List.forall₂_drop l.length hl
    simp only [List.map_append, List.sum_append] at hb ⊢
    obtain ⟨vx, h1, h2⟩ := ih1 hl1 (by omega)
    obtain ⟨vy, h3, h4⟩ := ih2 hl2 (by omega)
    have hU := unitR_pos 11 52
    have hu : floatUnit 11 52 = 2 ^ 1074 := by unfold floatUnit; norm_num
    rw [div_eq_iff hU.ne'] at h2 h4
    have e1 : vx = z1.sum * floatUnit 11 52 := by exact_mod_cast h2
    have e2 : vy = z2.sum * floatUnit 11 52 := by exact_mod_cast h4
    have hle : ∀ l : List Int, l.sum.natAbs ≤ (l.map Int.natAbs).sum := by
      intro l
      induction l with
      | nil => simp
      | cons x l ih => simp only [List.sum_cons, List.map_cons]; omega
    have g1 := hle z1
    have g2 := hle z2
    obtain ⟨s, hs⟩ := dyadic_is_float Fmt.f64 (z1.sum + z2.sum) 1074 (by omega) (by norm_num)
    rw [← hu] at hs
    have := add_exact hF h1 h3 hs (by rw [e1, e2, Int.add_mul])
    refine ⟨_, this, ?_⟩
    push_cast
    field_simp
  | @reorder d l l' x hp _ ih =>
    intro zs hl hb
    obtain ⟨zs', hp', hl'⟩ : ∃ zs' : List Int, zs'.Perm zs ∧ List.Forall₂ (fun x (z : Int) => IsReal 11 52 x z) l zs' := by
      have : Relation.Comp List.Perm (List.Forall₂ (fun x (z : Int) => IsReal 11 52 x z)) l zs := ⟨l', hp, hl⟩
      rw [← List.forall₂_comp_perm_eq_perm_comp_forall₂] at this
      obtain ⟨as', h1, h2⟩ := this
      exact ⟨as', h2, h1⟩
    have e1 : zs'.sum = zs.sum := hp'.sum_eq
    have e2 : (zs'.map Int.natAbs).sum = (zs.map Int.natAbs).sum := (hp'.map _).sum_eq
    have := ih hl' (by rw [e2]; exact hb)
    rwa [e1] at this

/-- **C103**: float64 sums of integers whose absolute values add up to at most `2^53` are exact, serial and threaded. -/
theorem C103_float64_integers (F : FloatUnit) (hF : IeeeArith F 11 52 64) (e : RedFunc) (start : Option (BitVec e.bits))
    (he : ReduceKernel F .add .f64 e start) (lay : Layout) (xs : List (BitVec 64)) (init : BitVec 64) (zs : List Int) (z : Int)
    (hxs : List.Forall₂ (fun x (z : Int) => IsReal 11 52 x z) xs zs) (hinit : IsReal 11 52 init z) (hn : 0 < xs.length)
    (hz : lay = .zero → ∀ x ∈ xs, ∀ y ∈ xs, x = y) (hsum : z.natAbs + (zs.map Int.natAbs).sum ≤ 2 ^ 53) :
    ∃ hb : e.bits = 64,
      (∃ r, reduceFast (e.at hb) 4 lay xs init = some r ∧ IsReal 11 52 r (z + zs.sum : Int)) ∧
      ∃ r, (∀ (req : Int) (mw zz : Nat) (sched : List Nat), (Work.exec (ufuncItem xs.length req mw zz) sched).pc 0 = .returned →
          threadedFast (e.at hb) 4 lay (start.map (BitVec.cast hb)) xs init (Work.kernelCalls (ufuncItem xs.length req mw zz)
            (Work.exec (ufuncItem xs.length req mw zz) sched)) = some r) ∧ IsReal 11 52 r (z + zs.sum : Int) := by
  obtain ⟨hb, hop, hst⟩ := f64_add_kernel he
  refine ⟨hb, ?_, ?_⟩
  · rw [hop]
    have hz0 : lay = .zero → ∀ x ∈ xs, xs[0]? = some x := by
      intro hlay x hx
      cases xs with
      | nil => cases hx
      | cons y l => simp [hz hlay y (by simp) x hx]
    obtain ⟨r, h1, h2⟩ := C103_serial (F.add 64) 4 (by decide) lay xs init hz0
    refine ⟨r, h1, ?_⟩
    have := combines_exact hF h2 (zs := z :: zs) (.cons hinit hxs) (by simpa using hsum)
    simpa using this
  · rw [hop, hst]
    obtain ⟨r, h1, h2⟩ := C103_threaded (F.add 64) 4 (by decide) lay (some 0) xs init hn hz
    refine ⟨r, h1, ?_⟩
    have hzero : ∀ n, List.Forall₂ (fun x (z : Int) => IsReal 11 52 x z) (List.replicate n (0 : BitVec 64)) (List.replicate n (0 : Int)) := by
      intro n
      induction n with
      | zero => exact .nil
      | succ n ih => exact .cons ⟨0, value_zeroPattern Fmt.f64, by simp⟩ ih
    have := combines_exact hF h2 (zs := z :: (List.replicate _ 0 ++ zs)) (.cons hinit (List.rel_append (hzero _) hxs)) (by
      simpa using hsum)
    simpa using this

/-- A property that every combination passes on reaches the result. -/
theorem combines_absorb {op : α → α → α} {P : α → Prop} (hP : ∀ x y, P x ∨ P y → P (op x y)) {d : Nat} {l : List α} {r : α}
    (h : Combines op d l r) : (∃ x ∈ l, P x) → P r := by
  induction h with
  | item d x => rintro ⟨y, hy, h⟩; rw [List.mem_singleton.1 hy] at h; exact h
  | both _ _ ih1 ih2 =>
    rintro ⟨x, hx, h⟩
    rcases List.mem_append.1 hx with hx | hx
    · exact hP _ _ (Or.inl (ih1 ⟨x, hx, h⟩))
    · exact hP _ _ (Or.inr (ih2 ⟨x, hx, h⟩))
  | reorder hp _ ih => rintro ⟨x, hx, h⟩; exact ih ⟨x, hp.mem_iff.2 hx, h⟩

/-- **C103**: a NaN anywhere in the array makes the float64 sum and product NaN, serial and threaded. -/
theorem C103_float64_nan (F : FloatUnit) (fn : BinFn) (hfn : fn = .add ∨ fn = .multiply)
    (hF : IeeeSpecial F 11 52 64)
    (e : RedFunc) (start : Option (BitVec e.bits)) (he : ReduceKernel F fn .f64 e start) (lay : Layout) (xs : List (BitVec 64)) (init : BitVec 64)
    (hx : ∃ x ∈ xs, floatValue 11 52 x = .nan) (hz : lay = .zero → ∀ x ∈ xs, ∀ y ∈ xs, x = y) :
    ∃ hb : e.bits = 64,
      (∃ r, reduceFast (e.at hb) 4 lay xs init = some r ∧ floatValue 11 52 r = .nan) ∧
      ∃ r, (∀ (req : Int) (mw zz : Nat) (sched : List Nat), (Work.exec (ufuncItem xs.length req mw zz) sched).pc 0 = .returned →
          threadedFast (e.at hb) 4 lay (start.map (BitVec.cast hb)) xs init (Work.kernelCalls (ufuncItem xs.length req mw zz)
            (Work.exec (ufuncItem xs.length req mw zz) sched)) = some r) ∧ floatValue 11 52 r = .nan := by
  have hnan : ∀ x y : BitVec 64, floatValue 11 52 x = .nan ∨ floatValue 11 52 y = .nan →
      floatValue 11 52 (F.add 64 x y) = .nan ∧ floatValue 11 52 (F.mul 64 x y) = .nan := by
    intro x y h
    refine ⟨hF.add _ _ _ ?_, hF.mul _ _ _ ?_⟩ <;> rcases h with h | h <;> rw [h] <;> cases floatValue 11 52 _ <;> rfl
  have hk : ∃ hb : e.bits = 64, ∀ x y, floatValue 11 52 x = .nan ∨ floatValue 11 52 y = .nan → floatValue 11 52 (e.at hb x y) = .nan := by
    obtain ⟨op, hm, he, rfl⟩ := he
    rw [opOf hm] at he
    rcases hfn with rfl | rfl <;> simp only [reduceOpFast, Option.some.injEq] at he <;> subst he
    · exact ⟨rfl, fun x y h => (hnan x y h).1⟩
    · exact ⟨rfl, fun x y h => (hnan x y h).2⟩
  obtain ⟨hb, hP⟩ := hk
  have hn : 0 < xs.length := by obtain ⟨x, hx, _⟩ := hx; exact List.length_pos_of_mem hx
  refine ⟨hb, ?_, ?_⟩
  · have hz0 : lay = .zero → ∀ x ∈ xs, xs[0]? = some x := by
      intro hlay x hx
      cases xs with
      | nil => cases hx
      | cons y l => simp [hz hlay y (by simp) x hx]
    obtain ⟨r, h1, h2⟩ := C103_serial (e.at hb) 4 (by decide) lay xs init hz0
    obtain ⟨x, hx, hv⟩ := hx
    exact ⟨r, h1, combines_absorb (P := fun x => floatValue 11 52 x = .nan) hP h2 ⟨x, by simp [hx], hv⟩⟩
  · obtain ⟨r, h1, h2⟩ := C103_threaded (e.at hb) 4 (by decide) lay (start.map (BitVec.cast hb)) xs init hn hz
    obtain ⟨x, hx, hv⟩ := hx
    exact ⟨r, h1, combines_absorb (P := fun x => floatValue 11 52 x = .nan) hP h2 ⟨x, by simp [hx], hv⟩⟩

/-- **C103 refuted** in the form "the threaded sum has the bits of the serial sum": summing negative zeros (with IEEE-754's `-0 + -0 = -0` and
`-0 + 0 = 0 + -0 = 0 + 0 = 0`) gives `-0` on the calling thread and `+0` threaded, for every layout and schedule. -/
theorem C103_signed_zero_violated (F : FloatUnit) (h1 : F.add 64 (1#64 <<< 63) (1#64 <<< 63) = 1#64 <<< 63) (h2 : F.add 64 (1#64 <<< 63) 0 = 0)
    (h3 : F.add 64 0 (1#64 <<< 63) = 0) (h4 : F.add 64 0 0 = 0) (lay : Layout) (n : Nat) (hn : 0 < n) (req : Int) (mw zz : Nat) (sched : List Nat)
    (hret : (Work.exec (ufuncItem n req mw zz) sched).pc 0 = .returned) :
    reduceFast (F.add 64) 4 lay (List.replicate n (1#64 <<< 63)) (1#64 <<< 63) = some (1#64 <<< 63) ∧
    threadedFast (F.add 64) 4 lay (some 0) (List.replicate n (1#64 <<< 63)) (1#64 <<< 63)
      (Work.kernelCalls (ufuncItem n req mw zz) (Work.exec (ufuncItem n req mw zz) sched)) = some 0 := by
  have hmem : ∀ x ∈ List.replicate n (1#64 <<< 63), x = 1#64 <<< 63 := fun x hx => (List.mem_replicate.1 hx).2
  have hall : ∀ {d l r}, Combines (F.add 64) d l r → (∀ x ∈ l, x = 1#64 <<< 63) → r = 1#64 <<< 63 := by
    intro d l r h
    induction h with
    | item d x => intro h; exact h x (by simp)
    | both _ _ i1 i2 => intro h; rw [i1 fun x hx => h x (by simp [hx]), i2 fun x hx => h x (by simp [hx]), h1]
    | reorder hp _ ih => intro h; exact ih fun x hx => h x (hp.mem_iff.1 hx)
  have hmix : ∀ {d l r}, Combines (F.add 64) d l r → (∀ x ∈ l, x = 1#64 <<< 63 ∨ x = 0) → (r = 1#64 <<< 63 ∨ r = 0) ∧ ((0 : BitVec 64) ∈ l → r = 0) := by
    intro d l r h
    induction h with
    | item d x => intro h; exact ⟨h x (by simp), fun hm => (List.mem_singleton.1 hm).symm⟩
    | both _ _ i1 i2 =>
      intro h
      obtain ⟨a1, a2⟩ := i1 fun x hx => h x (by simp [hx])
      obtain ⟨b1, b2⟩ := i2 fun x hx => h x (by simp [hx])
      refine ⟨?_, ?_⟩
      · rcases a1 with rfl | rfl <;> rcases b1 with rfl | rfl <;>
          first | exact Or.inl h1 | exact Or.inr h2 | exact Or.inr h3 | exact Or.inr h4
      · intro hm
        rcases List.mem_append.1 hm with hm | hm
        · rw [a2 hm]; rcases b1 with rfl | rfl <;> assumption
        · rw [b2 hm]; rcases a1 with rfl | rfl <;> assumption
    | reorder hp _ ih => intro h; have := ih fun x hx => h x (hp.mem_iff.1 hx); exact ⟨this.1, fun hm => this.2 (hp.mem_iff.2 hm)⟩
  constructor
  · obtain ⟨r, e1, e2⟩ := C103_serial (F.add 64) 4 (by decide) lay (List.replicate n (1#64 <<< 63)) (1#64 <<< 63) (by
      intro _ x hx; rw [hmem x hx]; simp [hn])
    rw [e1, hall e2 (by intro x hx; rcases List.mem_cons.1 hx with h | h; exact h; exact hmem x h)]
  · obtain ⟨r, e1, e2⟩ := C103_threaded (F.add 64) 4 (by decide) lay (some 0) (List.replicate n (1#64 <<< 63)) (1#64 <<< 63) (by simpa using hn) (by
      intro _ x hx y hy; rw [hmem x hx, hmem y hy])
    have := e1 req mw zz sched (by simpa using hret)
    rw [List.length_replicate] at this
    rw [this, (hmix e2 (by
      intro x hx
      simp only [List.mem_cons, List.mem_append, List.mem_replicate, Option.getD_some] at hx
      rcases hx with h | ⟨_, h⟩ | ⟨_, h⟩
      · exact Or.inl h
      · exact Or.inr h
      · exact Or.inl h)).2 (by simp)]

/-- Case: a NaN among 100000 numbers. -/
example (x : BitVec 64) (hx : floatValue 11 52 x = .nan) (l : List (BitVec 64)) (_ : l.length = 99999) : ∃ F e s, ReduceKernel F .multiply .f64 e s ∧
    ∃ hb : e.bits = 64, ∃ r, reduceFast (e.at hb) 4 .strided (l ++ [x]) 0x3ff0000000000000 = some r ∧
      floatValue 11 52 r = .nan := by
  obtain ⟨F, _, hF⟩ := ieeeArith_exists Fmt.f64
  obtain ⟨hb, h, _⟩ := C103_float64_nan F .multiply (Or.inr rfl) hF _ _ ⟨.MUL, by decide, rfl, rfl⟩ .strided
    (l ++ [x]) 0x3ff0000000000000 ⟨x, by simp, hx⟩ (by simp)
  exact ⟨F, _, _, ⟨.MUL, by decide, rfl, rfl⟩, hb, h⟩

/-- Case: the accuracy of a sum of 100000 numbers below `2^1000`, on a machine with IEEE-754 arithmetic; the threaded result exists. -/
example (xs : List (BitVec 64)) (as : List ℝ) (h : List.Forall₂ (IsReal 11 52) xs as) (hl : xs.length = 100000) (hs : (as.map abs).sum ≤ 2 ^ 1020) :
    ∃ (F : FloatUnit) (sched : List Nat) (r : BitVec 64), threadedFast (F.add 64) 4 .contiguous (some 0) xs 0
        (Work.kernelCalls (ufuncItem xs.length 3 3 0) (Work.exec (ufuncItem xs.length 3 3 0) sched)) = some r ∧
      Close 11 52 r as.sum (2072 / 2 ^ 52 * (as.map abs).sum) := by
  obtain ⟨F, hF, _⟩ := ieeeArith_exists Fmt.f64
  obtain ⟨sched, hret⟩ := returns_alone xs.length 3 3 0
  obtain ⟨hb, _, r, h1, h2⟩ := C103_float64_sum F hF _ _ ⟨.ADD, by decide, rfl, rfl⟩ .contiguous xs 0 as 0 h
    ⟨0, value_zeroPattern Fmt.f64, by simp⟩ (by omega) (by omega) (by simp) (by simpa using hs)
  refine ⟨F, sched, r, h1 3 3 0 sched hret, ?_⟩
  rw [hl] at h2
  simpa [passes] using h2

/-- Case: 3 + 1 + 2 threaded and serial, with an arithmetic that satisfies the hypotheses; the kernel and a schedule exist. -/
example : ∃ F, IeeeArith F 11 52 64 ∧ ∃ e s, ReduceKernel F .add .f64 e s ∧
    ∃ hb : e.bits = 64, ∃ r, reduceFast (e.at hb) 4 .contiguous [0x3ff0000000000000, 0x4000000000000000] 0x4008000000000000 = some r ∧
      IsReal 11 52 r (6 : Int) := by
  obtain ⟨F, hF, _⟩ := ieeeArith_exists Fmt.f64
  have hv : ∀ (x : BitVec 64) (z : Int), floatValue 11 52 x = .fin (z * 2 ^ 1074) → IsReal 11 52 x z := by
    intro x z h
    refine ⟨_, h, ?_⟩
    have hu : floatUnit 11 52 = 2 ^ 1074 := by unfold floatUnit; norm_num
    have hU := unitR_pos 11 52
    rw [← hu]; push_cast
    field_simp
  obtain ⟨hb, ⟨r, h1, h2⟩, _⟩ := C103_float64_integers F hF _ _ ⟨.ADD, by decide, rfl, rfl⟩ .contiguous
    [0x3ff0000000000000, 0x4000000000000000] 0x4008000000000000 [1, 2] 3
    (.cons (hv _ _ (by decide +kernel)) (.cons (hv _ _ (by decide +kernel)) .nil)) (hv _ _ (by decide +kernel)) (by decide) (by simp) (by decide)
  exact ⟨F, hF, _, _, ⟨.ADD, by decide, rfl, rfl⟩, hb, r, h1, h2⟩

end Pnumpy.Props
