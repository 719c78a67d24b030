import Verif.Proofs.TrigConvert
import Mathlib.Analysis.SpecialFunctions.Log.Deriv
import Mathlib.Analysis.Complex.ExponentialBounds
/-
Rounding and approximation errors of exp256_ps. (The error bounds are generated: each is the bound of the rounding lemma, rounded up.)
-/
namespace Pnumpy.Props
open Spec Ieee Trig

/-- The polynomial of exp256_ps over the reals. -/
noncomputable def expP (r : ℝ) : ℝ := (((((1.9875691500E-4 * r + 1.3981999507E-3) * r + 8.3334519073E-3) * r + 4.1665795894E-2) * r + 1.6666665459E-1) * r + 5.0000001201E-1) * (r * r) + r + 1

theorem exp_c0 : Closeb 8 23 0x39506967#32 1.9875691500E-4 (4969/419430400000000) (4969/25000000) := ⟨close_ps (x := 0x39506967#32) (13658471) 113 36 (by decide +kernel) (by decide +kernel) rfl (by norm_num [abs_le]), by norm_num [abs_le]⟩
theorem exp_c1 : Closeb 8 23 0x3ab743ce#32 1.3981999507E-3 (6991/83886080000000) (6991/5000000) := ⟨close_ps (x := 0x3ab743ce#32) (6005223) 117 32 (by decide +kernel) (by decide +kernel) rfl (by norm_num [abs_le]), by norm_num [abs_le]⟩
theorem exp_c2 : Closeb 8 23 0x3c088908#32 8.3334519073E-3 (16667/33554432000000) (16667/2000000) := ⟨close_ps (x := 0x3c088908#32) (1118497) 122 27 (by decide +kernel) (by decide +kernel) rfl (by norm_num [abs_le]), by norm_num [abs_le]⟩
theorem exp_c3 : Closeb 8 23 0x3d2aa9c1#32 4.1665795894E-2 (20833/8388608000000) (20833/500000) := ⟨close_ps (x := 0x3d2aa9c1#32) (11184577) 121 28 (by decide +kernel) (by decide +kernel) rfl (by norm_num [abs_le]), by norm_num [abs_le]⟩
theorem exp_c4 : Closeb 8 23 0x3e2aaaaa#32 1.6666665459E-1 (16667/1677721600000) (16667/100000) := ⟨close_ps (x := 0x3e2aaaaa#32) (5592405) 124 25 (by decide +kernel) (by decide +kernel) rfl (by norm_num [abs_le]), by norm_num [abs_le]⟩
theorem exp_c5 : Closeb 8 23 0x3f000000#32 5.0000001201E-1 (50001/1677721600000) (50001/100000) := ⟨close_ps (x := 0x3f000000#32) (1) 148 1 (by decide +kernel) (by decide +kernel) rfl (by norm_num [abs_le]), by norm_num [abs_le]⟩
theorem one32 : Closeb 8 23 0x3f800000#32 1 0 1 := ⟨close_ps (x := 0x3f800000#32) (1) 149 0 (by decide +kernel) (by decide +kernel) rfl (by norm_num [abs_le]), by norm_num [abs_le]⟩

theorem exp_chain {F : FloatUnit} (hF : IeeeArith F 8 23 32) {x : BitVec 32} {r : ℝ} (hx : Close 8 23 x r (7/100000000)) (hr : |r| ≤ (1733/5000)) :
    Close 8 23 (F.add 32 (F.add 32 (F.mul 32 (F.add 32 (F.mul 32 (F.add 32 (F.mul 32 (F.add 32 (F.mul 32 (F.add 32 (F.mul 32 (F.add 32 (F.mul 32 0x39506967#32 x) 0x3ab743ce#32) x) 0x3c088908#32) x) 0x3d2aa9c1#32) x) 0x3e2aaaaa#32) x) 0x3f000000#32) (F.mul 32 x x)) x) 0x3f800000#32) (expP r) (563/2500000000) := by
  replace hx : Closeb 8 23 x r (7/100000000) (1733/5000) := ⟨hx, hr⟩
  have t1 := Closeb.mul (W := (688903/10000000000)) (τ := (2213/100000000000000)) Fmt.f32 hF (p := 24) (by decide) exp_c0 hx (by norm_num) (by norm_num) (by norm_num)
  have t2 := Closeb.add (W := (14671/10000000)) (τ := (193/1000000000000)) Fmt.f32 hF (p := 24) (by decide) t1 exp_c1 (by norm_num) (by norm_num) (by norm_num)
  have t3 := Closeb.mul (W := (508497/1000000000)) (τ := (1999/10000000000000)) Fmt.f32 hF (p := 24) (by decide) t2 hx (by norm_num) (by norm_num) (by norm_num)
  have t4 := Closeb.add (W := (4421/500000)) (τ := (153/125000000000)) Fmt.f32 hF (p := 24) (by decide) t3 exp_c2 (by norm_num) (by norm_num) (by norm_num)
  have t5 := Closeb.mul (W := (9577/3125000)) (τ := (613/500000000000)) Fmt.f32 hF (p := 24) (by decide) t4 hx (by norm_num) (by norm_num) (by norm_num)
  have t6 := Closeb.add (W := (447307/10000000)) (τ := (797/125000000000)) Fmt.f32 hF (p := 24) (by decide) t5 exp_c3 (by norm_num) (by norm_num) (by norm_num)
  have t7 := Closeb.mul (W := (155037/10000000)) (τ := (3133/500000000000)) Fmt.f32 hF (p := 24) (by decide) t6 hx (by norm_num) (by norm_num) (by norm_num)
  have t8 := Closeb.add (W := (91087/500000)) (τ := (1353/50000000000)) Fmt.f32 hF (p := 24) (by decide) t7 exp_c4 (by norm_num) (by norm_num) (by norm_num)
  have t9 := Closeb.mul (W := (78927/1250000)) (τ := (259/10000000000)) Fmt.f32 hF (p := 24) (by decide) t8 hx (by norm_num) (by norm_num) (by norm_num)
  have t10 := Closeb.add (W := (35197/62500)) (τ := (8927/100000000000)) Fmt.f32 hF (p := 24) (by decide) t9 exp_c5 (by norm_num) (by norm_num) (by norm_num)
  have z := Closeb.mul (W := (30033/250000)) (τ := (5569/100000000000)) Fmt.f32 hF (p := 24) (by decide) hx hx (by norm_num) (by norm_num) (by norm_num)
  have t11 := Closeb.mul (W := (338263/5000000)) (τ := (1153/25000000000)) Fmt.f32 hF (p := 24) (by decide) t10 z (by norm_num) (by norm_num) (by norm_num)
  have t12 := Closeb.add (W := (414253/1000000)) (τ := (1409/10000000000)) Fmt.f32 hF (p := 24) (by decide) t11 hx (by norm_num) (by norm_num) (by norm_num)
  have t13 := Closeb.add (W := (70713/50000)) (τ := (563/2500000000)) Fmt.f32 hF (p := 24) (by decide) t12 one32 (by norm_num) (by norm_num) (by norm_num)
  have e : expP r = (((((((((((((1.9875691500E-4 * r) + 1.3981999507E-3) * r) + 8.3334519073E-3) * r) + 4.1665795894E-2) * r) + 1.6666665459E-1) * r) + 5.0000001201E-1) * (r * r)) + r) + 1) := by unfold expP; ring
  rw [e]; exact t13.1

theorem exp_poly (r : ℝ) (hr : |r| ≤ (1733/5000)) : |expP r - Real.exp r| ≤ 5/100000000 := by
  have hb := Real.exp_bound (x := r) (le_trans hr (by norm_num)) (n := 10) (by decide)
  have hrem : |r| ^ 10 * (((10 : ℕ).succ : ℝ) / (((10 : ℕ).factorial : ℝ) * ((10 : ℕ) : ℝ))) ≤ 1/10000000000 := by
    have : |r| ^ 10 ≤ (1733/5000) ^ 10 := pow_le_pow_left₀ (abs_nonneg r) hr 10
    have hf : ((10 : ℕ).factorial : ℝ) = 3628800 := by norm_num [Nat.factorial]
    rw [hf]
    push_cast
    norm_num at *
    linarith
  have hsum : (∑ m ∈ Finset.range 10, r ^ m / (m.factorial : ℝ)) = 1 + r + r^2/2 + r^3/6 + r^4/24 + r^5/120 + r^6/720 + r^7/5040 + r^8/40320 + r^9/362880 := by
    simp only [Finset.sum_range_succ, Finset.sum_range_zero, Nat.factorial]
    push_cast
    ring
  rw [hsum] at hb
  have hpoly : |expP r - (1 + r + r^2/2 + r^3/6 + r^4/24 + r^5/120 + r^6/720 + r^7/5040 + r^8/40320 + r^9/362880)| ≤ 49/1000000000 := by
    have e : expP r - (1 + r + r^2/2 + r^3/6 + r^4/24 + r^5/120 + r^6/720 + r^7/5040 + r^8/40320 + r^9/362880) =
      ((4337129/12600000000000)) * r^7+((837995563/90000000000000)) * r^6+((3557219/30000000000000)) * r^5+((-1306159/1500000000000)) * r^4+((-3623/300000000000)) * r^3+((1201/100000000000)) * r^2 + (-1/40320) * r^8 + (-1/362880) * r^9 := by unfold expP; norm_num; ring
    rw [e]
    have p : ∀ n : Nat, |r ^ n| ≤ (1733/5000) ^ n := fun n => by rw [abs_pow]; exact pow_le_pow_left₀ (abs_nonneg r) hr n
    have p2 := abs_le.mp (p 2); have p3 := abs_le.mp (p 3); have p4 := abs_le.mp (p 4); have p5 := abs_le.mp (p 5)
    have p6 := abs_le.mp (p 6); have p7 := abs_le.mp (p 7); have p8 := abs_le.mp (p 8); have p9 := abs_le.mp (p 9)
    norm_num at p2 p3 p4 p5 p6 p7 p8 p9
    rw [abs_le]
    constructor <;> linarith [p2.1, p2.2, p3.1, p3.2, p4.1, p4.2, p5.1, p5.2, p6.1, p6.2, p7.1, p7.2, p8.1, p8.2, p9.1, p9.2]
  have h2 := le_trans hb hrem
  rw [abs_sub_comm] at h2
  exact le_trans (abs_sub_le _ _ _) (le_trans (add_le_add hpoly h2) (by norm_num))

end Pnumpy.Props
